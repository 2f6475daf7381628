import Verif.Proofs.KD
import Verif.Props.Optical

/-!
# C101: the neutron optical potential is well formed for every nucleus and energy

`neutronMesh` is the potential `omCalc` builds for a neutron (projectile `6 << 8`, `Z = 0`, `A = 1`) on the
nucleus `Z`, `A`; `setOmp` gives its depths and geometry.  `other` stands for the library potentials CGMF never
selects and `junk` for the contents of the tables before they are written.
-/

namespace CGMF.Props

open CGMF.KD CGMF.Opt CGMF.OptSpec

variable (other : Nat → ℝ → Nat → Nat → Nat → Nat → Par → Nat × Par)

/-- **C101.** For every nucleus up to mass 300 and every energy up to 100 MeV all depths the code uses are
positive (the imaginary spin-orbit depth negative) and bounded, all radii and diffusenesses are positive, and no
switch clears any bit of the form number: real and imaginary volume and imaginary surface terms are all present
and there is no real surface term. -/
theorem C101_depths (e : ℝ) (Z A : Nat) (hA1 : 1 ≤ A) (hA : A ≤ 300) (hZ1 : 1 ≤ Z) (hZ : Z ≤ A) (he : 0 ≤ e)
    (he' : e ≤ 100) :
    (setOmp other (6 <<< 8) e Z A 0 1).1 = 0x613 ∧
    ∀ f, f = (setOmp other (6 <<< 8) e Z A 0 1).2 →
      (0 < f.c.vr ∧ f.c.vr ≤ 200) ∧ (0 < f.c.vi ∧ f.c.vi ≤ 20) ∧ (0 < f.c.si ∧ f.c.si ≤ 32) ∧ f.c.sr = 0 ∧
      (0 < f.vso ∧ f.vso ≤ 7) ∧ (-3.1 ≤ f.wso ∧ f.wso < 0) ∧
      0 < f.c.r0 ∧ 0 < f.c.rs ∧ f.c.rv = f.c.r0 ∧ 0 < f.rvso ∧ f.rwso = f.rvso ∧ f.rvso ≤ f.c.r0 ∧
      0 < f.c.a0 ∧ 0 < f.c.as ∧ f.c.av = f.c.a0 ∧ f.avso = 0.59 ∧ f.awso = 0.59 := by
  rw [setOmp_neutron other hA1 hA hZ1 hZ he he']
  refine ⟨rfl, ?_⟩
  rintro f rfl
  obtain ⟨g1, g2, g3, g4, g5⟩ := geometry (e := e) (Z := Z) hA1 hA
  have v := vrN_bounds hA1 hA hZ he he'
  have q := wsoN_bounds (e := e) (A := A) hA he
  have q2 := abs_le.mp q.2
  refine ⟨⟨lt_of_lt_of_le one_pos v.1, v.2⟩, viN_bounds hA he, siN_bounds hA1 hA hZ1 hZ he, rfl, vsoN_bounds hA he,
    ⟨q2.1, q.1⟩, g1.1, g2.1, rfl, ?_, rfl, g3.2, g4.1, g5.1, rfl, rfl, rfl⟩
  have := g3.1
  norm_num at this ⊢
  linarith

/-- **C101.** The mesh always fits: for every nucleus up to mass 300 and every energy from 1e-20 to 100 MeV
`omPotentialForm` neither stops the process nor leaves its tables, and up to the last point they hold the squared
radius, the Woods–Saxon, derivative Woods–Saxon and Thomas forms of the depths above, in units of 2μ/ħ². -/
theorem C101_mesh (junk : Pot ℝ) (e mu : ℝ) (Z A : Nat)
    (hj : junk.radi.length = 300 ∧ junk.mean.length = 300 ∧ junk.so.length = 300)
    (hA1 : 1 ≤ A) (hA : A ≤ 300) (hZ1 : 1 ≤ Z) (hZ : Z ≤ A) (he : 1 / 10 ^ 20 ≤ e) (he' : e ≤ 100) :
    ∃ m, neutronMesh other junk e mu Z A = .ok m ∧ 4 ≤ m.n ∧ m.n < 300 ∧ m.rad = 0.2 * ((m.n - 3 : Int) : ℝ) ∧
      ∀ f, f = (setOmp other (6 <<< 8) e Z A 0 1).2 → ∀ (i : Nat) (r : ℝ), (i : Int) ≤ m.n → r = i * 0.2 →
        m.pot.radi[i]? = some (r ^ 2) ∧
        m.pot.mean[i]? = some
          ⟨mu * twoMu * (f.c.vr / (1 + Real.exp ((r - f.c.r0) / f.c.a0))),
           mu * twoMu * (f.c.vi / (1 + Real.exp ((r - f.c.r0) / f.c.a0)) +
             f.c.si * (4 * Real.exp ((r - f.c.rs) / f.c.as) / (1 + Real.exp ((r - f.c.rs) / f.c.as)) ^ 2))⟩ ∧
        (1 ≤ i → m.pot.so[i]? = some
          ⟨mu * twoMu * cspo * (f.vso / r *
              (Real.exp ((r - f.rvso) / f.avso) / (f.avso * (1 + Real.exp ((r - f.rvso) / f.avso)) ^ 2))),
           mu * twoMu * cspo * (f.wso / r *
              (Real.exp ((r - f.rwso) / f.awso) / (f.awso * (1 + Real.exp ((r - f.rwso) / f.awso)) ^ 2)))⟩) := by
  obtain ⟨m, h1, h2, h3, _, h5, h6⟩ := mesh_ok other junk mu hj hA1 hA hZ1 hZ he he'
  have e0 : 0 ≤ e := le_trans (by positivity) he
  refine ⟨m, h1, h2, by omega, h5, ?_⟩
  rw [setOmp_neutron other hA1 hA hZ1 hZ e0 he']
  rintro f rfl i r hi rfl
  obtain ⟨k1, k2, k3⟩ := h6 i hi
  refine ⟨by rw [k1]; congr 1; ring, ?_, ?_⟩
  · rw [k2]
    unfold woodsSaxon derivWS
    simp only [fullN]
    congr 2
    · ring
    · ring
  · intro hi1
    rw [k3]
    have hr : ((i : ℝ) * 0.2) ≠ 0 := by
      have : (1 : ℝ) ≤ i := by exact_mod_cast hi1
      have : (0 : ℝ) < i * 0.2 := by positivity
      exact this.ne'
    unfold thomas
    rw [if_neg hr]
    simp only [fullN]
    congr 2
    · field_simp
    · field_simp

/-- **C101.** A lower bound on the energy is needed: at any positive energy up to 1e-40 MeV the mesh does not fit
and the process stops. -/
theorem C101_tiny (junk : Pot ℝ) (e mu : ℝ) (Z A : Nat) (hA1 : 1 ≤ A) (hA : A ≤ 300) (hZ1 : 1 ≤ Z) (hZ : Z ≤ A)
    (he : 0 < e) (he' : e ≤ 1 / 10 ^ 40) : neutronMesh other junk e mu Z A = .exit := by
  have e100 : e ≤ 100 := he'.trans (by norm_num)
  have v := vrN_bounds hA1 hA hZ he.le e100
  obtain ⟨g1, _⟩ := geometry (e := e) (Z := Z) hA1 hA
  have hf : (0x613 &&& 0xff : Nat) = 0x13 := by decide
  have a1 : (A : ℝ) ≤ 300 := by exact_mod_cast hA
  have hr : 60 ≤ radMax (radii 0x13 (fullN e Z A) e) := by
    have hm : (fullN e Z A).c.r0 + (fullN e Z A).c.a0 * (Real.log (vrN e Z A / e) - Real.log critMatching) ∈
        radii 0x13 (fullN e Z A) e := by rw [radii_neutron hA he.le]; simp
    refine le_trans ?_ (le_radMax hm)
    have hl : 100 ≤ Real.log (vrN e Z A / e) - Real.log critMatching := by
      have c0 : 0 < critMatching := by norm_num [critMatching]
      have v0 : 0 < vrN e Z A := by linarith [v.1]
      rw [← Real.log_div (by positivity) c0.ne', Real.le_log_iff_exp_le (by positivity), le_div_iff₀ c0, le_div_iff₀ he]
      have h1 : Real.exp 100 ≤ 2.72 ^ 100 := by
        have : Real.exp 100 = Real.exp 1 ^ 100 := by rw [← Real.exp_nat_mul]; norm_num
        rw [this]
        exact pow_le_pow_left₀ (Real.exp_pos 1).le (by have := Real.exp_one_lt_d9; norm_num at *; linarith) 100
      have h2 : critMatching * e ≤ critMatching * (1 / 10 ^ 40) := mul_le_mul_of_nonneg_left he' c0.le
      have h3 : Real.exp 100 * (critMatching * e) ≤ 2.72 ^ 100 * (critMatching * (1 / 10 ^ 40)) :=
        mul_le_mul h1 h2 (by positivity) (by positivity)
      have h4 : (2.72 : ℝ) ^ 100 * (critMatching * (1 / 10 ^ 40)) ≤ 1 := by norm_num [critMatching]
      linarith [v.1]
    have ha : 0.6 ≤ (fullN e Z A).c.a0 := by simp only [fullN]; norm_num; linarith
    have hp := mul_le_mul ha hl (by norm_num) (by linarith [ha, (by norm_num : (0 : ℝ) < 0.6)])
    norm_num at hp
    linarith [g1.1]
  unfold neutronMesh
  rw [setOmp_neutron other hA1 hA hZ1 hZ he.le e100]
  simp only
  rw [hf]
  unfold potentialForm integWidth
  obtain ⟨n, n1, n2, n3, n4⟩ := meshPoints_spec (K := ℝ) (width := 0.2) (rad := radMax (radii 0x13 (fullN e Z A) e))
    (by norm_num) (by linarith)
  have n5 : 300 < n := by
    have : (300 : ℝ) < n := by norm_num at *; linarith
    exact_mod_cast this
  rw [n4, if_pos (by omega)]
  rfl

example (junk : Pot ℝ) : neutronMesh other junk (1 / 10 ^ 41) 1 50 132 = .exit :=
  C101_tiny other junk _ 1 50 132 (by norm_num) (by norm_num) (by norm_num) (by norm_num) (by norm_num) (by norm_num)

/-- **C101.** Nothing is cut off: from the matching radius outwards every term of the potential is below a
millionth of the energy. -/
theorem C101_outside (junk : Pot ℝ) (e mu : ℝ) (Z A : Nat)
    (hj : junk.radi.length = 300 ∧ junk.mean.length = 300 ∧ junk.so.length = 300)
    (hA1 : 1 ≤ A) (hA : A ≤ 300) (hZ1 : 1 ≤ Z) (hZ : Z ≤ A) (he : 1 / 10 ^ 20 ≤ e) (he' : e ≤ 100)
    (m : Mesh) (hm : neutronMesh other junk e mu Z A = .ok m) (r : ℝ) (hr : m.rad ≤ r) (f : Full)
    (hf : f = (setOmp other (6 <<< 8) e Z A 0 1).2) :
    f.c.vr / (1 + Real.exp ((r - f.c.r0) / f.c.a0)) ≤ 1 / 10 ^ 6 * e ∧
    f.c.vi / (1 + Real.exp ((r - f.c.r0) / f.c.a0)) ≤ 1 / 10 ^ 6 * e ∧
    f.c.si * (4 * Real.exp ((r - f.c.rs) / f.c.as) / (1 + Real.exp ((r - f.c.rs) / f.c.as)) ^ 2) ≤ 1 / 10 ^ 6 * e ∧
    cspo * (f.vso / r * (Real.exp ((r - f.rvso) / f.avso) / (f.avso * (1 + Real.exp ((r - f.rvso) / f.avso)) ^ 2))) ≤
      1 / 10 ^ 6 * e ∧
    cspo * (|f.wso| / r * (Real.exp ((r - f.rwso) / f.awso) / (f.awso * (1 + Real.exp ((r - f.rwso) / f.awso)) ^ 2))) ≤
      1 / 10 ^ 6 * e := by
  have ep : 0 < e := lt_of_lt_of_le (by positivity) he
  obtain ⟨m', h1, _, _, h4, _, _⟩ := mesh_ok other junk mu hj hA1 hA hZ1 hZ he he'
  rw [h1] at hm
  cases hm
  rw [setOmp_neutron other hA1 hA hZ1 hZ ep.le he'] at hf
  subst hf
  obtain ⟨g1, g2, g3, g4, g5⟩ := geometry (e := e) (Z := Z) hA1 hA
  have v := vrN_bounds hA1 hA hZ ep.le he'
  have w := viN_bounds (A := A) hA ep.le
  have s := siN_bounds hA1 hA hZ1 hZ ep.le
  have o := vsoN_bounds (A := A) hA ep.le
  have q := wsoN_bounds (A := A) hA ep.le
  have hx : ∀ x ∈ radii 0x13 (fullN e Z A) e, x ≤ r := fun x hx => (le_radMax hx).trans (h4.le.trans hr)
  rw [radii_neutron hA ep.le] at hx
  simp only [List.mem_cons, List.not_mem_nil, or_false, forall_eq_or_imp, forall_eq] at hx
  obtain ⟨x0, _, x2, x3, x4, x5⟩ := hx
  have hc : critMatching = 1 / 10 ^ 6 := by norm_num [critMatching]
  have rs0 : 0 < (fullN e Z A).rvso := by have := g3.1; norm_num at this; linarith
  -- the matching radius lies outside the spin-orbit radius
  have hR : (fullN e Z A).rvso ≤ r := by
    refine le_trans g3.2 (le_trans ?_ x0)
    have : 0 ≤ Real.log (vrN e Z A / e) - Real.log critMatching := by
      rw [sub_nonneg]
      refine Real.log_le_log (by norm_num [critMatching]) ?_
      rw [le_div_iff₀ ep]
      norm_num [critMatching]
      linarith [v.1]
    have := mul_nonneg g4.1.le this
    linarith
  have ws : ∀ X R a : ℝ, 0 < a → 0 < X → R + a * (Real.log (X / e) - Real.log critMatching) ≤ r →
      X / (1 + Real.exp ((r - R) / a)) ≤ 1 / 10 ^ 6 * e := by
    intro X R a ha hX h
    have t := tail ha hX ep h
    rw [hc] at t
    refine le_trans ?_ t
    rw [Real.exp_neg, div_eq_mul_inv]
    refine mul_le_mul_of_nonneg_left ?_ hX.le
    exact inv_anti₀ (Real.exp_pos _) (by linarith)
  have sq : ∀ y : ℝ, 0 < y → y / (1 + y) ^ 2 ≤ y⁻¹ := by
    intro y hy
    rw [div_le_iff₀ (by positivity), inv_mul_eq_div, le_div_iff₀ hy]
    nlinarith
  have so : ∀ X : ℝ, 0 < X → (fullN e Z A).rvso + 0.59 * (Real.log (X * cspo / (0.59 * (fullN e Z A).rvso) / e) -
      Real.log critMatching) ≤ r → cspo * (X / r * (Real.exp ((r - (fullN e Z A).rvso) / 0.59) /
        (0.59 * (1 + Real.exp ((r - (fullN e Z A).rvso) / 0.59)) ^ 2))) ≤ 1 / 10 ^ 6 * e := by
    intro X hX h
    have c0 : 0 < cspo := by norm_num [cspo]
    have r0 : 0 < r := lt_of_lt_of_le rs0 hR
    have t := tail (by norm_num) (by positivity) ep h
    rw [hc, Real.exp_neg] at t
    refine le_trans ?_ t
    have y0 := Real.exp_pos ((r - (fullN e Z A).rvso) / 0.59)
    have h1 := sq _ y0
    generalize Real.exp ((r - (fullN e Z A).rvso) / 0.59) = y at *
    have e1 : cspo * (X / r * (y / (0.59 * (1 + y) ^ 2))) = X * cspo / (0.59 * r) * (y / (1 + y) ^ 2) := by
      field_simp
    rw [e1]
    have h2 : X * cspo / (0.59 * r) ≤ X * cspo / (0.59 * (fullN e Z A).rvso) :=
      div_le_div_of_nonneg_left (by positivity) (by positivity) (mul_le_mul_of_nonneg_left hR (by norm_num))
    exact mul_le_mul h2 h1 (by positivity) (by positivity)
  refine ⟨ws (vrN e Z A) _ _ g4.1 (by linarith [v.1]) x0, ws _ _ _ g4.1 w.1 x2, ?_, so _ o.1 x4, so _ (abs_pos.mpr q.1.ne) x5⟩
  have t := tail (X := 4 * siN e Z A) g5.1 (by linarith [s.1]) ep x3
  rw [hc, Real.exp_neg] at t
  refine le_trans ?_ t
  have h1 := sq _ (Real.exp_pos ((r - (fullN e Z A).c.rs) / (fullN e Z A).c.as))
  have h2 := mul_le_mul_of_nonneg_left h1 (show 0 ≤ 4 * siN e Z A by linarith [s.1])
  refine le_trans (le_of_eq ?_) h2
  show siN e Z A * _ = _
  ring

/-- **C101.** The potential absorbs: for fragments (mass 60 to 260) and neutrons up to 30 MeV the imaginary part
at every mesh point, spin-orbit term included, is positive in every partial wave `j = l - 1/2`, and in every
partial wave `j = l + 1/2` up to `l = 20`. -/
theorem C101_absorbs (junk : Pot ℝ) (e mu : ℝ) (Z A : Nat)
    (hj : junk.radi.length = 300 ∧ junk.mean.length = 300 ∧ junk.so.length = 300)
    (hA1 : 60 ≤ A) (hA : A ≤ 260) (hZ1 : 1 ≤ Z) (hZ : Z ≤ A) (he : 1 / 10 ^ 20 ≤ e) (he' : e ≤ 30) (hmu : 0 < mu)
    (m : Mesh) (hm : neutronMesh other junk e mu Z A = .ok m) (l : Nat) (j : ℝ)
    (hl : j = l - 1 / 2 ∨ (j = l + 1 / 2 ∧ l ≤ 20)) (i : Nat) (hi1 : 1 ≤ i) (hi : (i : Int) ≤ m.n) :
    ∃ w x : Cx ℝ, m.pot.mean[i]? = some w ∧ m.pot.so[i]? = some x ∧ 0 < w.im + soFactor (l : ℝ) (1 / 2) j * x.im := by
  have ep : 0 < e := lt_of_lt_of_le (by positivity) he
  obtain ⟨m', h1, _, _, _, _, h6⟩ := mesh_ok other junk mu hj (by omega) (by omega) hZ1 hZ he (by linarith)
  rw [h1] at hm
  cases hm
  obtain ⟨_, k2, k3⟩ := h6 i hi
  refine ⟨_, _, k2, k3, ?_⟩
  simp only
  have hx : (0.2 : ℝ) ≤ i * 0.2 := by
    have : (1 : ℝ) ≤ i := by exact_mod_cast hi1
    norm_num
    linarith
  have x0 : (0 : ℝ) < i * 0.2 := lt_of_lt_of_le (by norm_num) hx
  generalize (i : ℝ) * 0.2 = x at *
  have w := viN_bounds (A := A) (by omega) ep.le
  have s := siN_bounds (A := A) (by omega) (by omega) hZ1 hZ ep.le
  have q := wsoN_bounds (A := A) (by omega) ep.le
  have mt : 0 < mu * twoMu := mul_pos hmu (by norm_num [twoMu])
  have t0 : 0 ≤ thomas x (fullN e Z A).rvso 0.59 := by
    unfold thomas
    rw [if_neg x0.ne']
    have := Real.exp_pos ((x - (fullN e Z A).rvso) / 0.59)
    positivity
  have d0 : 0 < siN e Z A * derivWS Real.exp x (fullN e Z A).c.rs (fullN e Z A).c.as := by
    refine mul_pos s.1 ?_
    unfold derivWS
    have := Real.exp_pos ((x - (fullN e Z A).c.rs) / (fullN e Z A).c.as)
    positivity
  have f0 : 0 ≤ viN e A * woodsSaxon Real.exp x (fullN e Z A).c.r0 (fullN e Z A).c.a0 := by
    refine mul_nonneg w.1.le ?_
    unfold woodsSaxon
    have := Real.exp_pos ((x - (fullN e Z A).c.r0) / (fullN e Z A).c.a0)
    positivity
  have c0 : 0 < cspo := by norm_num [cspo]
  have hwa : wsoN e A = -|wsoN e A| := by rw [abs_of_neg q.1]; ring
  rcases hl with rfl | ⟨rfl, hl⟩
  · have hs : soFactor (l : ℝ) (1 / 2) (l - 1 / 2) = -((l : ℝ) + 1) := by unfold soFactor; ring
    rw [hs, hwa]
    have : 0 ≤ ((l : ℝ) + 1) * (|wsoN e A| * thomas x (fullN e Z A).rvso 0.59 * (mu * twoMu * cspo)) := by positivity
    have : 0 < (viN e A * woodsSaxon Real.exp x (fullN e Z A).c.r0 (fullN e Z A).c.a0 +
      siN e Z A * derivWS Real.exp x (fullN e Z A).c.rs (fullN e Z A).c.as) * (mu * twoMu) :=
      mul_pos (by linarith) mt
    linarith
  · have hs : soFactor (l : ℝ) (1 / 2) (l + 1 / 2) = (l : ℝ) := by unfold soFactor; ring
    rw [hs, hwa]
    have key := absorbs (A := A) (l := (l : ℝ)) (x := x) hA1 hA ep.le he' (by exact_mod_cast hl) hx
    have key2 := mul_le_mul_of_nonneg_right key mt.le
    have d1 := mul_pos d0 mt
    have e1 : (l : ℝ) * cspo * |wsoN e A| * thomas x (fullN e Z A).rvso 0.59 * (mu * twoMu) =
        (l : ℝ) * (|wsoN e A| * thomas x (fullN e Z A).rvso 0.59 * (mu * twoMu * cspo)) := by ring
    have key3 : (l : ℝ) * cspo * |wsoN e A| * thomas x (fullN e Z A).rvso 0.59 * (mu * twoMu) ≤
      viN e A * woodsSaxon Real.exp x (fullN e Z A).c.r0 (fullN e Z A).c.a0 * (mu * twoMu) := key2
    linarith

/-- **C101.** So the potential cannot create neutrons: in those partial waves `omInternalFunction` completes, for
any wave number and starting value, and its wave function has no outward flux at any mesh point. -/
theorem C101_no_source (junk : Pot ℝ) (e mu k2 amp eps : ℝ) (Z A : Nat)
    (hj : junk.radi.length = 300 ∧ junk.mean.length = 300 ∧ junk.so.length = 300)
    (hA1 : 60 ≤ A) (hA : A ≤ 260) (hZ1 : 1 ≤ Z) (hZ : Z ≤ A) (he : 1 / 10 ^ 20 ≤ e) (he' : e ≤ 30) (hmu : 0 < mu)
    (m : Mesh) (hm : neutronMesh other junk e mu Z A = .ok m) (l : Nat) (j : ℝ)
    (hl : j = l - 1 / 2 ∨ (j = l + 1 / 2 ∧ l ≤ 20)) :
    ∃ (w : List (Cx ℝ)) (V W U X : Nat → ℝ), internal m.n.toNat 0.2 k2 (l : ℝ) (1 / 2) j amp eps m.pot = .ok w ∧
      w.length = m.n.toNat + 1 ∧ (∀ i : Nat, (i : Int) ≤ m.n → m.pot.mean[i]? = some ⟨V i, W i⟩ ∧ m.pot.so[i]? = some ⟨U i, X i⟩) ∧
      ∀ (i : Nat) (a b : Cx ℝ), w[i]? = some a → w[i + 1]? = some b →
        flux (aux 0.2 (radialQ 0.2 k2 l (1 / 2) j V W U X i) a)
          (aux 0.2 (radialQ 0.2 k2 l (1 / 2) j V W U X (i + 1)) b) ≤ 0 := by
  obtain ⟨m', h1, n1, n2, _, _, h6⟩ := mesh_ok other junk mu hj (by omega) (by omega) hZ1 hZ he (by linarith)
  have hab := C101_absorbs other junk e mu Z A hj hA1 hA hZ1 hZ he he' hmu m hm l j hl
  rw [h1] at hm
  cases hm
  let V : Nat → ℝ := fun i => ((m.pot.mean[i]?).getD ⟨0, 0⟩).re
  let W : Nat → ℝ := fun i => if (i : Int) ≤ m.n then ((m.pot.mean[i]?).getD ⟨0, 0⟩).im else 0
  let U : Nat → ℝ := fun i => ((m.pot.so[i]?).getD ⟨0, 0⟩).re
  let X : Nat → ℝ := fun i => if (i : Int) ≤ m.n then ((m.pot.so[i]?).getD ⟨0, 0⟩).im else 0
  have ent : ∀ i : Nat, (i : Int) ≤ m.n → m.pot.mean[i]? = some ⟨V i, W i⟩ ∧ m.pot.so[i]? = some ⟨U i, X i⟩ := by
    intro i hi
    obtain ⟨_, k2, k3⟩ := h6 i hi
    simp only [V, W, U, X, if_pos hi, k2, k3, Option.getD_some]
    exact ⟨trivial, trivial⟩
  let p' : Pot ℝ := ⟨(List.range (m.n.toNat + 1)).map fun i : Nat => ((i : ℝ) * 0.2) ^ 2,
    (List.range (m.n.toNat + 1)).map fun i : Nat => ⟨V i, W i⟩, (List.range (m.n.toNat + 1)).map fun i : Nat => ⟨U i, X i⟩⟩
  have hp : OnMesh p' (m.n.toNat + 1) 0.2 V W U X := ⟨rfl, rfl, rfl⟩
  have hc := internal_congr (p := m.pot) (p' := p') (N := m.n.toNat) (by omega) (by
    intro i hi
    have hi' : (i : Int) ≤ m.n := by omega
    obtain ⟨q1, q2⟩ := ent i hi'
    have q0 := (h6 i hi').1
    have hr : i < m.n.toNat + 1 := by omega
    simp only [p', List.getElem?_map, List.getElem?_range hr, Option.map_some, q0, q1, q2]
    refine ⟨?_, trivial, trivial⟩
    congr 1
    ring) 0.2 k2 (l : ℝ) (1 / 2) j amp eps
  have hpos : ∀ i : Nat, 1 ≤ i → (i : Int) ≤ m.n → 0 < W i + soFactor (l : ℝ) (1 / 2) j * X i := by
    intro i hi hin
    obtain ⟨w', x', q1, q2, q3⟩ := hab i hi hin
    obtain ⟨p1, p2⟩ := ent i hin
    rw [p1] at q1
    rw [p2] at q2
    cases q1
    cases q2
    exact q3
  obtain ⟨w, w1, w2, _, _⟩ := C72_complete p' (m.n.toNat + 1) m.n.toNat 0.2 k2 l (1 / 2) j amp eps V W U X hp
    (by norm_num) (by omega) (by omega) (by
      intro i hi hi'
      right
      have := hpos i (by omega) (by omega)
      simp only [radialQ]
      have h3 : -(W i) - soFactor (l : ℝ) (1 / 2) j * X i < 0 := by linarith
      exact mul_ne_zero (by norm_num) h3.ne)
  refine ⟨w, V, W, U, X, hc.trans w1, w2, ent, ?_⟩
  intro i a b ha hb
  refine C72_no_source p' (m.n.toNat + 1) m.n.toNat 0.2 k2 l (1 / 2) j amp eps V W U X hp (by norm_num) (by omega) w
    ?_ w1 i a b ha hb
  intro i hi
  by_cases hin : (i : Int) ≤ m.n
  · exact (hpos i hi hin).le
  · simp [W, X, if_neg hin]

/-! A neutron of 1 MeV on 140Xe, the tables full of arbitrary numbers. -/

private noncomputable def xe (x : ℝ) : Pot ℝ := ⟨List.replicate 300 x, List.replicate 300 ⟨x, x⟩, List.replicate 300 ⟨x, x⟩⟩

example (x : ℝ) : ∃ m, neutronMesh other (xe x) 1 1 54 140 = .ok m ∧ 4 ≤ m.n ∧ m.n < 300 := by
  obtain ⟨m, h, h1, h2, _⟩ := C101_mesh other (xe x) 1 1 54 140 ⟨List.length_replicate, List.length_replicate, List.length_replicate⟩ (by norm_num) (by norm_num) (by norm_num)
    (by norm_num) (by norm_num) (by norm_num)
  exact ⟨m, h, h1, h2⟩
example : (setOmp other (6 <<< 8) 1 54 140 0 1).1 = 0x613 ∧ (0 : ℝ) < (setOmp other (6 <<< 8) 1 54 140 0 1).2.c.si := by
  obtain ⟨h, h'⟩ := C101_depths other 1 54 140 (by norm_num) (by norm_num) (by norm_num) (by norm_num) (by norm_num) (by norm_num)
  exact ⟨h, (h' _ rfl).2.2.1.1⟩
example (x : ℝ) (m : Mesh) (hm : neutronMesh other (xe x) 1 1 54 140 = .ok m) :
    ∃ w, internal m.n.toNat 0.2 (1 / 20) ((3 : Nat) : ℝ) (1 / 2) (3 + 1 / 2) (0.2 ^ 4) (-1 / 10 ^ 10) m.pot = .ok w := by
  obtain ⟨w, _, _, _, _, h, _⟩ := C101_no_source other (xe x) 1 1 (1 / 20) (0.2 ^ 4) (-1 / 10 ^ 10) 54 140 ⟨List.length_replicate, List.length_replicate, List.length_replicate⟩
    (by norm_num) (by norm_num) (by norm_num) (by norm_num) (by norm_num) (by norm_num) (by norm_num) m hm 3 (3 + 1 / 2)
    (Or.inr ⟨by norm_num, by norm_num⟩)
  exact ⟨w, h⟩
example (x : ℝ) (m : Mesh) (hm : neutronMesh other (xe x) 1 1 54 140 = .ok m) (f : Full) (hf : f = (setOmp other (6 <<< 8) 1 54 140 0 1).2) :
    f.c.vr / (1 + Real.exp ((m.rad + 1 - f.c.r0) / f.c.a0)) ≤ 1 / 10 ^ 6 * 1 :=
  (C101_outside other (xe x) 1 1 54 140 ⟨List.length_replicate, List.length_replicate, List.length_replicate⟩ (by norm_num) (by norm_num)
    (by norm_num) (by norm_num) (by norm_num) (by norm_num) m hm (m.rad + 1) (by linarith) f hf).1

end CGMF.Props

import Verif.Proofs.Event
import Verif.Spec.Event
import Mathlib.Analysis.Real.Sqrt

/-!
# C03, C04: the event as seen through the getters
-/

set_option linter.unusedSectionVars false
set_option linter.unusedSimpArgs false

namespace CGMF.Props

open CGMF CGMF.Event CGMF.Spec

variable {K : Type _} [Field K] [LinearOrder K] [IsStrictOrderedRing K]

private theorem joined_of_col (f : K → K) (nL nH : Nat) (lf hf : List K)
    (hL : nL ≤ lf.length) (hH : nH ≤ hf.length) (col : List (Option K))
    (hcol : assembleCol f nL nH lf hf = .ok col) :
    Joined (getter (nL + nH) col) f lf hf nL nH := by
  rw [assembleCol_ok f nL nH lf hf hL hH] at hcol
  injection hcol with hcol
  subst hcol
  have hlen : (lf.take nL ++ hf.take nH).length = nL + nH := by simp; omega
  refine ⟨fun i hi => ⟨lf[i]'(by omega), by simp, ?_⟩,
    fun i hi => ⟨hf[i]'(by omega), by simp, ?_⟩, fun i hi => ?_⟩
  · rw [getter_map _ _ f hlen, dif_pos (by omega)]
    have : ((i : Int).toNat) = i := by omega
    simp only [this]
    rw [List.getElem_append_left (by simp; omega)]
    simp
  · rw [getter_map _ _ f hlen, dif_pos (by omega)]
    have : ((nL : Int) + i).toNat = nL + i := by omega
    simp only [this]
    rw [List.getElem_append_right (by simp)]
    have h2 : min nL lf.length = nL := by omega
    simp [h2]
  · rw [getter_map _ _ f hlen, dif_neg (by push_cast; omega)]

/-- **C03, C04.**  For every event assembled from two well-formed fragment records and any number
of pre-fission neutrons: construction succeeds, multiplicities add up, and each of the fourteen
neutron/photon getters shows the light-fragment values in emission order followed by the
heavy-fragment values, and `-1` for every other index.  Neutron ages are the emission time, photon
ages the emission time plus the level delay. -/
theorem C04_event_lists (sqrt : K → K) (nmass time : K) (lf hf : FragRecord K)
    (hl : WellFormed lf) (hh : WellFormed hf) (preN : Nat) (pfn : List (PreNeutron K))
    (hp : preN ≤ pfn.length) :
    ∃ e, assemble sqrt nmass time lf hf preN pfn = .ok e ∧
      e.neutronNu = lf.nu + hf.nu ∧ e.photonNu = lf.nug + hf.nug ∧ e.preNu = preN ∧
      Joined (getNeutronEnergy e) id lf.neutronEnergies hf.neutronEnergies lf.nu hf.nu ∧
      Joined (getNeutronDircosu e) id lf.neutronDircosu hf.neutronDircosu lf.nu hf.nu ∧
      Joined (getNeutronDircosv e) id lf.neutronDircosv hf.neutronDircosv lf.nu hf.nu ∧
      Joined (getNeutronDircosw e) id lf.neutronDircosw hf.neutronDircosw lf.nu hf.nu ∧
      Joined (getNeutronAge e) (fun _ => time) lf.neutronEnergies hf.neutronEnergies
        lf.nu hf.nu ∧
      Joined (getCmNeutronEnergy e) id lf.cmNeutronEnergies hf.cmNeutronEnergies lf.nu hf.nu ∧
      Joined (getCmNeutronDircosu e) id lf.cmNeutronDircosu hf.cmNeutronDircosu lf.nu hf.nu ∧
      Joined (getCmNeutronDircosv e) id lf.cmNeutronDircosv hf.cmNeutronDircosv lf.nu hf.nu ∧
      Joined (getCmNeutronDircosw e) id lf.cmNeutronDircosw hf.cmNeutronDircosw lf.nu hf.nu ∧
      Joined (getPhotonEnergy e) id lf.photonEnergies hf.photonEnergies lf.nug hf.nug ∧
      Joined (getPhotonDircosu e) id lf.photonDircosu hf.photonDircosu lf.nug hf.nug ∧
      Joined (getPhotonDircosv e) id lf.photonDircosv hf.photonDircosv lf.nug hf.nug ∧
      Joined (getPhotonDircosw e) id lf.photonDircosw hf.photonDircosw lf.nug hf.nug ∧
      Joined (getPhotonAge e) (fun d => time + d) lf.photonAges hf.photonAges
        lf.nug hf.nug := by
  have hnl := hl.nu_le
  have hnh := hh.nu_le
  have hgl := hl.nug_le
  have hgh := hh.nug_le
  have ln := hl.neutrons
  have lp := hl.photons
  have hn := hh.neutrons
  have hph := hh.photons
  simp only [List.mem_cons, List.not_mem_nil, or_false, forall_eq_or_imp, forall_eq] at ln lp hn hph
  obtain ⟨l1, l2, l3, l4, l5, l6, l7, l8⟩ := ln
  obtain ⟨h1, h2, h3, h4, h5, h6, h7, h8⟩ := hn
  obtain ⟨p1, p2, p3, p4, p5⟩ := lp
  obtain ⟨q1, q2, q3, q4, q5⟩ := hph
  unfold assemble
  have N := fun (f : K → K) (a b : List K) (ha : a.length = 10) (hb : b.length = 10) =>
    assembleCol_ok f lf.nu hf.nu a b (by omega) (by omega)
  have G := fun (f : K → K) (a b : List K) (ha : a.length = 50) (hb : b.length = 50) =>
    assembleCol_ok f lf.nug hf.nug a b (by omega) (by omega)
  have JN := fun (f : K → K) (a b : List K) (ha : a.length = 10) (hb : b.length = 10) =>
    joined_of_col f lf.nu hf.nu a b (by omega) (by omega) _ (N f a b ha hb)
  have JG := fun (f : K → K) (a b : List K) (ha : a.length = 50) (hb : b.length = 50) =>
    joined_of_col f lf.nug hf.nug a b (by omega) (by omega) _ (G f a b ha hb)
  simp only [preCol_ok _ pfn preN hp, N _ _ _ l1 h1, N _ _ _ l2 h2, N _ _ _ l3 h3, N _ _ _ l4 h4,
    N _ _ _ l5 h5, N _ _ _ l6 h6, N _ _ _ l7 h7, N _ _ _ l8 h8, G _ _ _ p1 q1, G _ _ _ p2 q2,
    G _ _ _ p3 q3, G _ _ _ p4 q4, G _ _ _ p5 q5, Res.bind_ok, Res.pure_eq]
  refine ⟨_, rfl, rfl, rfl, rfl, ?_⟩
  exact ⟨JN _ _ _ l1 h1, JN _ _ _ l2 h2, JN _ _ _ l3 h3, JN _ _ _ l4 h4, JN _ _ _ l1 h1,
    JN _ _ _ l5 h5, JN _ _ _ l6 h6, JN _ _ _ l7 h7, JN _ _ _ l8 h8, JG _ _ _ p1 q1,
    JG _ _ _ p2 q2, JG _ _ _ p3 q3, JG _ _ _ p4 q4, JG _ _ _ p5 q5⟩

/-- **C03, C39 (pre-fission neutrons).**  The pre-fission getters show, for each pre-fission
neutron, the kinetic energy of its velocity and a direction whose components squared sum to one
(for a non-zero velocity), proportional to the velocity; any other index gives `-1`. -/
theorem C03_prefission_getters (sqrt : K → K) (hs : ∀ x, 0 ≤ x → sqrt x * sqrt x = x)
    (nmass time : K) (lf hf : FragRecord K)
    (preN : Nat) (pfn : List (PreNeutron K)) (hp : preN ≤ pfn.length) (e : EventData K)
    (he : assemble sqrt nmass time lf hf preN pfn = .ok e) :
    (∀ i : Nat, (hi : i < preN) → ∃ p eng u v w, pfn[i]? = some p ∧
        getPreFissionNeutronEnergy e i = .ok eng ∧
        getPreFissionNeutronDircosu e i = .ok u ∧
        getPreFissionNeutronDircosv e i = .ok v ∧
        getPreFissionNeutronDircosw e i = .ok w ∧
        2 * eng = nmass * (p.vx ^ 2 + p.vy ^ 2 + p.vz ^ 2) ∧
        (p.vx ^ 2 + p.vy ^ 2 + p.vz ^ 2 ≠ 0 → u ^ 2 + v ^ 2 + w ^ 2 = 1 ∧
          ∃ s, s * s = p.vx ^ 2 + p.vy ^ 2 + p.vz ^ 2 ∧
            p.vx = s * u ∧ p.vy = s * v ∧ p.vz = s * w)) ∧
    (∀ i : Int, i < 0 ∨ (preN : Int) ≤ i →
        getPreFissionNeutronEnergy e i = .ok (-1) ∧ getPreFissionNeutronDircosu e i = .ok (-1) ∧
        getPreFissionNeutronDircosv e i = .ok (-1) ∧
        getPreFissionNeutronDircosw e i = .ok (-1)) := by
  unfold assemble at he
  simp only [preCol_ok _ pfn preN hp, Res.bind_ok, Res.bind_eq_ok] at he
  obtain ⟨_, _, _, _, _, _, _, _, _, _, _, _, _, _, _, _, _, _, _, _, _, _, _, _, _, _, _, _, he⟩ := he
  injection he with he
  subst he
  have hlen : (pfn.take preN).length = preN := by simp; omega
  simp only [getPreFissionNeutronEnergy, getPreFissionNeutronDircosu, getPreFissionNeutronDircosv,
    getPreFissionNeutronDircosw, getter_map _ _ _ hlen]
  constructor
  · intro i hi
    have hip : i < pfn.length := by omega
    have hc : (0 : Int) ≤ i ∧ (i : Int) < preN := by omega
    have hget : (pfn.take preN)[(i : Int).toNat]'(by simp; omega) = pfn[i] := by simp
    refine ⟨pfn[i], _, _, _, _, by simp [hip], rfl, rfl, rfl, rfl, ?_, ?_⟩
    · rw [dif_pos hc, hget]
      simp only [preEnergy, PreNeutron.v2]
      ring
    · intro hne
      simp only [dif_pos hc, hget]
      have hv2 : (pfn[i]).v2 = pfn[i].vx ^ 2 + pfn[i].vy ^ 2 + pfn[i].vz ^ 2 := by
        simp only [PreNeutron.v2]; ring
      have hnn : 0 ≤ (pfn[i]).v2 := by rw [hv2]; positivity
      have hsq := hs _ hnn
      have hs0 : sqrt (pfn[i]).v2 ≠ 0 := by
        intro h0
        rw [h0] at hsq
        apply hne
        rw [← hv2, ← hsq]; simp
      refine ⟨?_, sqrt (pfn[i]).v2, by rw [hsq, hv2], ?_, ?_, ?_⟩
      · have : sqrt (pfn[i]).v2 ^ 2 = pfn[i].vx ^ 2 + pfn[i].vy ^ 2 + pfn[i].vz ^ 2 := by
          rw [sq, hsq, hv2]
        rw [div_pow, div_pow, div_pow, ← add_div, ← add_div, this, div_self hne]
      · field_simp
      · field_simp
      · field_simp
  · intro i hi
    have : ¬ (0 ≤ i ∧ i < (preN : Int)) := by omega
    simp [this]

/-- A record with the C array sizes, for the examples: two neutrons, one photon. -/
def exampleRecord (a : ℚ) : FragRecord ℚ :=
  let n : List ℚ := [a, a + 1, 0, 0, 0, 0, 0, 0, 0, 0]
  let g : List ℚ := (a + 2) :: List.replicate 49 0
  ⟨2, n, n, n, n, n, n, n, n, 1, g, g, g, g, g⟩

theorem exampleRecord_wf (a : ℚ) : WellFormed (exampleRecord a) := by
  constructor <;> simp [exampleRecord]

example : ∃ e, assemble (fun x => x) 1 7 (exampleRecord 1) (exampleRecord 5) 1 [⟨1, 0, 0⟩] = .ok e ∧
    getNeutronEnergy e 0 = .ok 1 ∧ getNeutronEnergy e 1 = .ok 2 ∧ getNeutronEnergy e 2 = .ok 5 ∧
    getNeutronEnergy e 3 = .ok 6 ∧ getNeutronEnergy e 4 = .ok (-1) ∧
    getPhotonAge e 1 = .ok 14 ∧ getPreFissionNeutronEnergy e 0 = .ok (1 / 2) :=
  ⟨_, rfl, by decide +kernel, by decide +kernel, by decide +kernel, by decide +kernel,
    by decide +kernel, by decide +kernel, by decide +kernel⟩

/-- The square-root hypothesis of `C03_prefission_getters` is met by the real square root. -/
example : ∀ x : ℝ, 0 ≤ x → Real.sqrt x * Real.sqrt x = x := fun _ h => Real.mul_self_sqrt h

/-- **C63.**  For an event of the non-fission (CGM) constructor, the energy getters work, but the
direction and age getters read storage that was never written, for every index in range. -/
theorem C63_cgm_directions_indeterminate (nG nN : Nat) (mclg mcln : List K)
    (hg : nG ≤ mclg.length) (hn : nN ≤ mcln.length) :
    ∃ e, cgmAssemble nG nN mclg mcln = .ok e ∧
      (∀ i : Nat, i < nG → ∃ x, mclg[i]? = some x ∧ getPhotonEnergy e i = .ok x) ∧
      (∀ i : Nat, i < nN → ∃ x, mcln[i]? = some x ∧ getNeutronEnergy e i = .ok x) ∧
      (∀ i : Nat, i < nG → getPhotonDircosu e i = .ub ∧ getPhotonDircosv e i = .ub ∧
        getPhotonDircosw e i = .ub ∧ getPhotonAge e i = .ub) ∧
      (∀ i : Nat, i < nN → getNeutronDircosu e i = .ub ∧ getNeutronDircosv e i = .ub ∧
        getNeutronDircosw e i = .ub ∧ getNeutronAge e i = .ub ∧ getCmNeutronEnergy e i = .ub) := by
  have hc := fun (src : List K) n (h : n ≤ src.length) => copy_loop0 src (fun x => x) n 0 h
  have hun : ∀ n (i : Nat), i < n → getter n (alloc K n) (i : Int) = .ub := by
    intro n i hi
    simp [getter, alloc, readAt, hi]
  have hok : ∀ n (src : List K) (hsrc : n ≤ src.length) (i : Nat), i < n → ∃ x, src[i]? = some x ∧
      getter n ((src.take n).map (fun x => some x)) (i : Int) = .ok x := by
    intro n src hsrc i hi
    refine ⟨src[i]'(by omega), by simp, ?_⟩
    have := getter_map n (src.take n) (fun x : K => x) (by simp; omega) (i : Int)
    rw [this, dif_pos (by omega)]
    simp
  unfold cgmAssemble alloc
  simp only [Nat.add_zero, List.replicate_zero, List.append_nil] at hc
  simp only [hc mclg nG hg, hc mcln nN hn, Res.bind_ok, Res.pure_eq]
  refine ⟨_, rfl, fun i hi => hok nG mclg hg i hi, fun i hi => hok nN mcln hn i hi,
    fun i hi => ⟨hun nG i hi, hun nG i hi, hun nG i hi, hun nG i hi⟩,
    fun i hi => ⟨hun nN i hi, hun nN i hi, hun nN i hi, hun nN i hi, hun nN i hi⟩⟩

example : cgmAssemble 1 1 [(3 : ℚ)] [4] ≠ .ub := by decide +kernel

end CGMF.Props

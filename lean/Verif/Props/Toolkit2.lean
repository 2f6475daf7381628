import Verif.Spec.Toolkit2
import Verif.Props.Toolkit

/-!
# C88, C89, C90, C91, C92: further analysis of history files

Readable from the statements with `Model/Toolkit.lean` and `Model/Toolkit2.lean` (the methods of `Histories`) and
`Spec/Toolkit.lean` and `Spec/Toolkit2.lean`. A history of the events `ps` is the list of fragments `flat ps`.
-/

namespace CGMF.Props

open CGMF CGMF.Toolkit CGMF.Parser

/-! ## C88 -/

theorem mean_ok {xs : List ℚ} (h : xs ≠ []) : mean xs = .ok (xs.sum / xs.length) := by
  unfold mean; rw [if_neg h]

theorem mean_mul {xs : List ℚ} (h : xs ≠ []) : xs.sum / xs.length * (xs.length : ℚ) = xs.sum := by
  have : (xs.length : ℚ) ≠ 0 := by exact_mod_cast fun e => h (List.length_eq_zero_iff.mp e)
  field_simp

theorem flatten_flat {β : Type} (f : PyFrag → List β) (ps : List (PyFrag × PyFrag)) :
    ((flat ps).map f).flatten = ps.flatMap fun p => f p.1 ++ f p.2 := by
  induction ps with
  | nil => rfl
  | cons p ps ih =>
      have : flat (p :: ps) = p.1 :: p.2 :: flat ps := rfl
      rw [this]
      simp [ih]

theorem preList_flat (ps : List (PyFrag × PyFrag)) :
    preList (flat ps) = ps.flatMap fun p => (preNeutrons p).map (·.e) := by
  unfold preList preNu preElab
  rw [(evens_flat _ ps).2, (evens_flat _ ps).2, List.zip_map', List.map_map, ← List.flatMap_def]
  congr 1
  funext p
  simp only [Function.comp_def, preNeutrons]
  split <;> simp

theorem sum_flatMap_e (f : PyFrag × PyFrag → List Vec4) (ps : List (PyFrag × PyFrag)) :
    (ps.flatMap fun p => (f p).map (·.e)).sum = (ps.map fun p => energy (f p)).sum := by
  induction ps with
  | nil => rfl
  | cons p ps ih => simp [ih, energy]

theorem length_flatMap_e {γ : Type} (f : PyFrag × PyFrag → List γ) (ps : List (PyFrag × PyFrag)) :
    ((ps.flatMap f).length : ℚ) = (ps.map fun p => ((f p).length : ℚ)).sum := by
  induction ps with
  | nil => simp
  | cons p ps ih => rw [List.flatMap_cons, List.length_append, Nat.cast_add, ih]; rfl

theorem counted_neutrons {p : PyFrag × PyFrag} (h : Counted p) : neutrons p = (allNeutrons p).length := by
  obtain ⟨h1, h2, h3, h4, _⟩ := h
  unfold neutrons allNeutrons preNeutrons
  split
  · rename_i hp; rw [h1, h2, h4 hp]; simp; omega
  · simp [h1, h2]; omega

theorem meanNeutron_perm (ps : List (PyFrag × PyFrag)) :
    ((nElab (flat ps)).flatten ++ preList (flat ps)).Perm (ps.flatMap fun p => (allNeutrons p).map (·.e)) := by
  unfold nElab
  rw [flatten_flat, preList_flat]
  induction ps with
  | nil => exact List.Perm.refl _
  | cons p ps ih =>
      simp only [allNeutrons, List.map_append] at ih
      simp only [List.flatMap_cons, allNeutrons, List.map_append]
      refine List.Perm.trans ?_ (List.Perm.append_left _ ih)
      simp only [List.append_assoc]
      refine List.Perm.append_left _ (List.Perm.append_left _ ?_)
      rw [← List.append_assoc, ← List.append_assoc]
      exact List.Perm.append_right _ List.perm_append_comm

/-- **C88.** For every history with at least one neutron, `meanNeutronElab() * nubartot()` is the average over events of
the energy carried away by all their neutrons, pre-fission ones included. -/
theorem C88_neutrons (ps : List (PyFrag × PyFrag)) (hc : ∀ p ∈ ps, Counted p) (hn : ∃ p ∈ ps, allNeutrons p ≠ []) :
    ∃ m nu, meanNeutronElab (flat ps) = .ok m ∧ nubartot (flat ps) = .ok nu ∧ 0 < nu ∧
      m * nu = average (fun p => energy (allNeutrons p)) ps := by
  obtain ⟨p0, hp0, hn0⟩ := hn
  have hne : ps ≠ [] := List.ne_nil_of_mem hp0
  set L := ps.flatMap fun p => (allNeutrons p).map (·.e) with hL
  have hperm := meanNeutron_perm ps
  rw [← hL] at hperm
  have hLne : L ≠ [] := by
    obtain ⟨x, hx⟩ := List.exists_mem_of_ne_nil _ hn0
    exact List.ne_nil_of_mem (List.mem_flatMap.mpr ⟨p0, hp0, List.mem_map_of_mem (f := fun v : Vec4 => v.e) hx⟩)
  have hm : meanNeutronElab (flat ps) = .ok (L.sum / L.length) := by
    unfold meanNeutronElab
    rw [mean_ok (fun e => hLne (by rw [e] at hperm; exact List.nil_perm.mp hperm)), hperm.sum_eq, hperm.length_eq]
  obtain ⟨P, _, _, h3, h4, _⟩ := C55_neutrons ps hne
    (fun p hp => by rw [counted_neutrons (hc p hp)]; exact Int.natCast_nonneg _)
  have hnu : average (fun p => (neutrons p : ℚ)) ps = (L.length : ℚ) / ps.length := by
    unfold average
    rw [hL, length_flatMap_e]
    congr 2
    apply List.map_congr_left
    intro p hp
    rw [counted_neutrons (hc p hp)]; simp
  have hps : (0 : ℚ) < ps.length := by exact_mod_cast List.length_pos_iff.mpr hne
  have hLp : (0 : ℚ) < L.length := by exact_mod_cast List.length_pos_iff.mpr hLne
  refine ⟨_, _, hm, h3, ?_, ?_⟩
  · rw [h4, hnu]; positivity
  · rw [h4, hnu]
    unfold average
    rw [← sum_flatMap_e, ← hL]
    field_simp

/-- **C88**, photons: the same for `meanGammaElab()` and `nubargtot(Eth)` with a threshold that no photon is below. -/
theorem C88_photons (eth : ℚ) (ps : List (PyFrag × PyFrag))
    (he : ∀ p ∈ ps, ∀ g ∈ p.1.phot ++ p.2.phot, eth ≤ g.e) (hn : ∃ p ∈ ps, p.1.phot ++ p.2.phot ≠ []) :
    ∃ m nu, meanGammaElab (flat ps) = .ok m ∧ nubargtot eth (flat ps) = .ok nu ∧ 0 < nu ∧
      m * nu = average (fun p => energy (p.1.phot ++ p.2.phot)) ps := by
  obtain ⟨p0, hp0, hn0⟩ := hn
  have hne : ps ≠ [] := List.ne_nil_of_mem hp0
  have hL : (gElab (flat ps)).flatten = ps.flatMap fun p => (p.1.phot ++ p.2.phot).map (·.e) := by
    unfold gElab; rw [flatten_flat]; simp only [List.map_append]
  set L := ps.flatMap fun p => (p.1.phot ++ p.2.phot).map (·.e)
  have hLne : L ≠ [] := by
    obtain ⟨x, hx⟩ := List.exists_mem_of_ne_nil _ hn0
    exact List.ne_nil_of_mem (List.mem_flatMap.mpr ⟨p0, hp0, List.mem_map_of_mem (f := fun v : Vec4 => v.e) hx⟩)
  obtain ⟨P, _, _, h3, h4, _⟩ := C55_photons eth ps hne
  have hnu : average (fun p => (photons eth p : ℚ)) ps = (L.length : ℚ) / ps.length := by
    unfold average
    rw [length_flatMap_e]
    congr 2
    apply List.map_congr_left
    intro p hp
    unfold photons
    rw [List.filter_eq_self.mpr (fun g hg => by simpa using he p hp g hg), List.length_map]
  have hps : (0 : ℚ) < ps.length := by exact_mod_cast List.length_pos_iff.mpr hne
  have hLp : (0 : ℚ) < L.length := by exact_mod_cast List.length_pos_iff.mpr hLne
  refine ⟨L.sum / L.length, _, ?_, h3, ?_, ?_⟩
  · unfold meanGammaElab meanList
    rw [hL, mean_ok hLne]
  · rw [h4, hnu]; positivity
  · rw [h4, hnu]
    unfold average
    rw [← sum_flatMap_e]
    field_simp
    rfl

/-- **C88**, light and heavy fragments: the mean over all fragments is the mean of the two means, weighted with the numbers
of neutrons. -/
theorem C88_split (ps : List (PyFrag × PyFrag)) (hl : ∃ p ∈ ps, p.1.lab ≠ []) (hh : ∃ p ∈ ps, p.2.lab ≠ []) :
    ∃ m l h nl nh, meanNeutronElabFragments (flat ps) = .ok m ∧ meanNeutronElabLF (flat ps) = .ok l ∧
      meanNeutronElabHF (flat ps) = .ok h ∧ nl = (ps.map fun p => (p.1.lab.length : ℚ)).sum ∧
      nh = (ps.map fun p => (p.2.lab.length : ℚ)).sum ∧ 0 < nl ∧ 0 < nh ∧ m * (nl + nh) = l * nl + h * nh := by
  have pick : ∀ f : PyFrag × PyFrag → List Vec4, (∃ p ∈ ps, f p ≠ []) → (ps.flatMap fun p => (f p).map (·.e)) ≠ [] := by
    rintro f ⟨p, hp, hx⟩
    obtain ⟨x, hx⟩ := List.exists_mem_of_ne_nil _ hx
    exact List.ne_nil_of_mem (List.mem_flatMap.mpr ⟨p, hp, List.mem_map_of_mem (f := fun v : Vec4 => v.e) hx⟩)
  have hA := pick (fun p => p.1.lab) hl
  have hB := pick (fun p => p.2.lab) hh
  have e1 : (evens (nElab (flat ps))).flatten = ps.flatMap fun p => p.1.lab.map (·.e) := by
    unfold nElab; rw [(evens_flat _ ps).1, List.flatMap_def]
  have e2 : (odds (nElab (flat ps))).flatten = ps.flatMap fun p => p.2.lab.map (·.e) := by
    unfold nElab; rw [(evens_flat _ ps).2, List.flatMap_def]
  have e3 : (nElab (flat ps)).flatten.Perm
      ((ps.flatMap fun p => p.1.lab.map (·.e)) ++ ps.flatMap fun p => p.2.lab.map (·.e)) := by
    unfold nElab
    rw [flatten_flat]
    clear hA hB e1 e2 hl hh pick
    induction ps with
    | nil => exact List.Perm.refl _
    | cons p ps ih =>
        simp only [List.flatMap_cons, List.append_assoc]
        refine List.Perm.append_left _ ((List.Perm.append_left _ ih).trans ?_)
        rw [← List.append_assoc, ← List.append_assoc]
        exact List.Perm.append_right _ List.perm_append_comm
  have n1 := length_flatMap_e (fun p => p.1.lab.map (·.e)) ps
  have n2 := length_flatMap_e (fun p => p.2.lab.map (·.e)) ps
  simp only [List.length_map] at n1 n2
  generalize (ps.flatMap fun p => p.1.lab.map (·.e)) = A at *
  generalize (ps.flatMap fun p => p.2.lab.map (·.e)) = B at *
  have pA : (0 : ℚ) < A.length := by exact_mod_cast List.length_pos_iff.mpr hA
  have pB : (0 : ℚ) < B.length := by exact_mod_cast List.length_pos_iff.mpr hB
  refine ⟨(A ++ B).sum / (A ++ B).length, A.sum / A.length, B.sum / B.length, A.length, B.length, ?_, ?_, ?_, n1, n2,
    pA, pB, ?_⟩
  · unfold meanNeutronElabFragments meanList
    rw [mean_ok (fun e => hA (by
      rw [e] at e3; have := List.nil_perm.mp e3; simp at this; exact this.1)), e3.sum_eq, e3.length_eq]
  · unfold meanNeutronElabLF meanList; rw [e1, mean_ok hA]
  · unfold meanNeutronElabHF meanList; rw [e2, mean_ok hB]
  · rw [mean_mul hA, mean_mul hB, List.sum_append, List.length_append]
    push_cast
    have : (A.length : ℚ) + B.length ≠ 0 := by positivity
    field_simp

/-- **C88**, each kind of fragment: the mean energy of the neutrons (photons) of light and of heavy fragments, times their number, is
the sum of their energies; likewise for the centre-of-mass energies of all neutrons. -/
theorem C88_each (ps : List (PyFrag × PyFrag)) :
    (∀ m, meanNeutronElabLF (flat ps) = .ok m → m * (ps.map fun p => (p.1.lab.length : ℚ)).sum = (ps.map fun p => energy p.1.lab).sum) ∧
    (∀ m, meanNeutronElabHF (flat ps) = .ok m → m * (ps.map fun p => (p.2.lab.length : ℚ)).sum = (ps.map fun p => energy p.2.lab).sum) ∧
    (∀ m, meanGammaElabLF (flat ps) = .ok m → m * (ps.map fun p => (p.1.phot.length : ℚ)).sum = (ps.map fun p => energy p.1.phot).sum) ∧
    (∀ m, meanGammaElabHF (flat ps) = .ok m → m * (ps.map fun p => (p.2.phot.length : ℚ)).sum = (ps.map fun p => energy p.2.phot).sum) ∧
    (∀ m, meanNeutronEcmFragments (flat ps) = .ok m → m * (ps.map fun p => ((p.1.cm ++ p.2.cm).length : ℚ)).sum =
      (ps.map fun p => energy (p.1.cm ++ p.2.cm)).sum) := by
  have key : ∀ (f : PyFrag × PyFrag → List Vec4) (L : List ℚ) (m : ℚ), L = (ps.flatMap fun p => (f p).map (·.e)) → mean L = .ok m →
      m * (ps.map fun p => ((f p).length : ℚ)).sum = (ps.map fun p => energy (f p)).sum := by
    intro f L m hL hm
    have hne : L ≠ [] := by
      intro h
      unfold mean at hm
      rw [if_pos h] at hm
      cases hm
    rw [mean_ok hne] at hm
    cases hm
    have n1 := length_flatMap_e (fun p => (f p).map (·.e)) ps
    have n2 := sum_flatMap_e f ps
    simp only [List.length_map] at n1
    rw [← hL] at n1 n2
    rw [← n1, mean_mul hne, n2]
  refine ⟨fun m hm => key (fun p => p.1.lab) _ m ?_ hm, fun m hm => key (fun p => p.2.lab) _ m ?_ hm,
    fun m hm => key (fun p => p.1.phot) _ m ?_ hm, fun m hm => key (fun p => p.2.phot) _ m ?_ hm,
    fun m hm => key (fun p => p.1.cm ++ p.2.cm) _ m ?_ hm⟩
  · unfold nElab; rw [(evens_flat _ ps).1, List.flatMap_def]
  · unfold nElab; rw [(evens_flat _ ps).2, List.flatMap_def]
  · unfold gElab; rw [(evens_flat _ ps).1, List.flatMap_def]
  · unfold gElab; rw [(evens_flat _ ps).2, List.flatMap_def]
  · unfold nEcm; rw [flatten_flat]; simp only [List.map_append]

/-- **C88**, range: no mean is outside the interval of the energies, and a history without neutrons has no mean energy
of neutrons, but a mean energy 0 of pre-fission neutrons. -/
theorem C88_range (lo hi : ℚ) (ps : List (PyFrag × PyFrag)) :
    ((∃ p ∈ ps, allNeutrons p ≠ []) → (∀ p ∈ ps, ∀ x ∈ allNeutrons p, lo ≤ x.e ∧ x.e ≤ hi) →
      ∃ m, meanNeutronElab (flat ps) = .ok m ∧ lo ≤ m ∧ m ≤ hi) ∧
    ((∀ p ∈ ps, allNeutrons p = []) → meanNeutronElab (flat ps) = .ub ∧ meanPreFissionNeutronElab (flat ps) = .ok 0) := by
  have hperm := meanNeutron_perm ps
  constructor
  · rintro ⟨p0, hp0, hn0⟩ hb
    set L := (nElab (flat ps)).flatten ++ preList (flat ps) with hL
    have hLne : L ≠ [] := by
      obtain ⟨x, hx⟩ := List.exists_mem_of_ne_nil _ hn0
      exact List.ne_nil_of_mem (hperm.mem_iff.mpr
        (List.mem_flatMap.mpr ⟨p0, hp0, List.mem_map_of_mem (f := fun v : Vec4 => v.e) hx⟩))
    have hLb : ∀ x ∈ L, lo ≤ x ∧ x ≤ hi := by
      intro x hx
      obtain ⟨p, hp, hx⟩ := List.mem_flatMap.mp (hperm.mem_iff.mp hx)
      obtain ⟨v, hv, rfl⟩ := List.mem_map.mp hx
      exact hb p hp v hv
    have hLp : (0 : ℚ) < L.length := by exact_mod_cast List.length_pos_iff.mpr hLne
    have key : ∀ l : List ℚ, (∀ x ∈ l, lo ≤ x ∧ x ≤ hi) → lo * l.length ≤ l.sum ∧ l.sum ≤ hi * l.length := by
      intro l
      induction l with
      | nil => simp
      | cons a l ih =>
          intro h
          have h1 := ih (fun x hx => h x (by simp [hx]))
          have h2 := h a (by simp)
          simp only [List.sum_cons, List.length_cons]
          push_cast
          constructor <;> linarith
    refine ⟨_, mean_ok hLne, ?_, ?_⟩
    · rw [le_div_iff₀ hLp]; exact (key L hLb).1
    · rw [div_le_iff₀ hLp]; exact (key L hLb).2
  · intro h
    have h0 : (ps.flatMap fun p => (allNeutrons p).map (·.e)) = [] := by
      rw [List.flatMap_eq_nil_iff]; intro p hp; rw [h p hp]; rfl
    rw [h0] at hperm
    have h1 := List.perm_nil.mp hperm
    constructor
    · unfold meanNeutronElab mean; rw [if_pos h1]
    · unfold meanPreFissionNeutronElab
      rw [if_pos (List.append_eq_nil_iff.mp h1).2]

/-- Two events: neutrons of 2 and 3 MeV, one of 1 MeV, a pre-fission neutron of 5 MeV in the second; the reader's
entry with energy zero in the first. -/
def meEvents : List (PyFrag × PyFrag) :=
  [({ tkFrag 96 [vx, vy] [(1, 1 / 10), (2, 5)] 0 with ke := 100, pre := (3, 0, 4), post := (3, 0, 4) },
    { tkFrag 139 [vz] [(1 / 2, 2)] 0 with pren := [⟨0, 0, 0, 0⟩], ke := 80, pre := (-3, 0, -4), post := (0, 0, -1) }),
   ({ tkFrag 100 [] [(1, 3)] 0 with ke := 99, pre := (0, 5, 12), post := (0, 5, 12) },
    { tkFrag 135 [vx] [] 1 with pren := [⟨0, 0, -1, 5⟩], ke := 78, pre := (0, -5, -12), post := (0, -5, -12) })]

example : (∀ p ∈ meEvents, Counted p) ∧ meanNeutronElab (flat meEvents) = .ok (13 / 5) ∧
    nubartot (flat meEvents) = .ok (5 / 2) ∧ average (fun p => energy (allNeutrons p)) meEvents = 13 / 2 ∧
    meanPreFissionNeutronElab (flat meEvents) = .ok 5 ∧ meanNeutronElabFragments (flat meEvents) = .ok 2 ∧
    meanNeutronElabLF (flat meEvents) = .ok (5 / 2) ∧ meanNeutronElabHF (flat meEvents) = .ok (3 / 2) ∧
    meanGammaElab (flat meEvents) = .ok (9 / 8) ∧ nubargtot 0 (flat meEvents) = .ok 2 := by decide +kernel

example : ∃ m nu, meanNeutronElab (flat meEvents) = .ok m ∧ nubartot (flat meEvents) = .ok nu ∧ 0 < nu ∧
      m * nu = average (fun p => energy (allNeutrons p)) meEvents :=
  C88_neutrons meEvents (by decide +kernel) ⟨_, List.mem_cons_self, by decide +kernel⟩

/-- Photons of light and heavy fragments. -/
example : ∃ l h, meanGammaElabLF (flat meEvents) = .ok l ∧ meanGammaElabHF (flat meEvents) = .ok h ∧ l ≠ h := by
  refine ⟨4 / 3, 1 / 2, by decide +kernel, by decide +kernel, by norm_num⟩

/-! ## C89 -/

theorem maxQ_spec {l : List ℚ} (h : l ≠ []) : ∃ m, maxQ l = .ok m ∧ m ∈ l ∧ ∀ y ∈ l, y ≤ m := by
  cases l with
  | nil => exact absurd rfl h
  | cons x xs =>
      refine ⟨xs.foldl max x, rfl, ?_⟩
      clear h
      induction xs generalizing x with
      | nil => simp
      | cons a xs ih =>
          obtain ⟨h1, h2⟩ := ih (max x a)
          simp only [List.foldl_cons]
          constructor
          · rcases List.mem_cons.mp h1 with h1 | h1
            · rw [h1]; rcases max_choice x a with h | h <;> rw [h] <;> simp
            · simp [h1]
          · intro y hy
            have h3 := h2 (max x a) (by simp)
            rcases List.mem_cons.mp hy with rfl | hy
            · exact (le_max_left _ _).trans h3
            · rcases List.mem_cons.mp hy with rfl | hy
              · exact (le_max_right _ _).trans h3
              · exact h2 y (by simp [hy])

theorem minQ_spec {l : List ℚ} (h : l ≠ []) : ∃ m, minQ l = .ok m ∧ m ∈ l ∧ ∀ y ∈ l, m ≤ y := by
  cases l with
  | nil => exact absurd rfl h
  | cons x xs =>
      refine ⟨xs.foldl min x, rfl, ?_⟩
      clear h
      induction xs generalizing x with
      | nil => simp
      | cons a xs ih =>
          obtain ⟨h1, h2⟩ := ih (min x a)
          simp only [List.foldl_cons]
          constructor
          · rcases List.mem_cons.mp h1 with h1 | h1
            · rw [h1]; rcases min_choice x a with h | h <;> rw [h] <;> simp
            · simp [h1]
          · intro y hy
            have h3 := h2 (min x a) (by simp)
            rcases List.mem_cons.mp hy with rfl | hy
            · exact h3.trans (min_le_left _ _)
            · rcases List.mem_cons.mp hy with rfl | hy
              · exact h3.trans (min_le_right _ _)
              · exact h2 y (by simp [hy])

theorem tkes_flat (ps : List (PyFrag × PyFrag)) : tkes (flat ps) = .ok (ps.map tke) := by
  unfold tkes
  rw [(evens_flat _ ps).1, (evens_flat _ ps).2, bcast_map]
  rfl

/-- Average over the events with a total kinetic energy in `[x, y)`, zero if there are none. -/
def binAverage (q : PyFrag × PyFrag → ℚ) (x y : ℚ) (ps : List (PyFrag × PyFrag)) : ℚ :=
  if between x y ps = [] then 0 else average q (between x y ps)

theorem meanBin_spec (q : PyFrag × PyFrag → ℚ) (x y : ℚ) (ps : List (PyFrag × PyFrag)) :
    meanBin (ps.map tke) (ps.map q) x y = .ok (binAverage q x y ps) := by
  unfold meanBin
  rw [select_run (by simp), List.zip_map', List.filter_map, List.map_map]
  have hf : (ps.filter ((fun x_1 : ℚ × ℚ => decide (x ≤ x_1.1) && decide (x_1.1 < y)) ∘ fun a => (tke a, q a)))
      = between x y ps := by
    unfold between
    apply List.filter_congr
    intro p _
    simp
  rw [hf]
  simp only [Res.bind]
  unfold binAverage
  by_cases h : between x y ps = []
  · rw [if_pos (by rw [h]; rfl), if_pos h]
  · rw [if_neg (by simpa using h), if_neg h, mean_ok (by simpa using h)]
    unfold average
    rw [List.length_map]
    rfl

theorem tkeRows_spec (q : PyFrag × PyFrag → ℚ) (lo : ℚ) (ps : List (PyFrag × PyFrag)) : ∀ m i : Nat,
    tkeRows (ps.map tke) (ps.map q) lo m i
      = .ok ((List.range m).map fun k : Nat =>
          (lo + (i + k : Nat), binAverage q (lo + (i + k : Nat)) (lo + (i + k + 1 : Nat)) ps)) := by
  intro m
  induction m with
  | zero => intro i; rfl
  | succ m ih =>
      intro i
      rw [tkeRows, meanBin_spec]
      simp only [Res.bind]
      rw [ih, List.range_succ_eq_map, List.map_cons, List.map_map]
      simp only []
      congr 2
      apply List.map_congr_left
      intro k _
      simp only [Function.comp_def]
      rw [show i + 1 + k = i + k.succ from by omega]

theorem qTKE_spec (q : PyFrag × PyFrag → ℚ) (ps : List (PyFrag × PyFrag)) (hne : ps ≠ []) :
    ∃ (rows : List (ℚ × ℚ)) (lo hi : ℚ), qTKE (ps.map tke) (ps.map q) = .ok rows ∧
      (∃ p ∈ ps, tke p = lo) ∧ (∃ p ∈ ps, tke p = hi) ∧ (∀ p ∈ ps, lo ≤ tke p ∧ tke p ≤ hi) ∧
      (rows.length : Int) = ⌈hi - lo⌉ ∧
      ∀ (i : Nat) (r : ℚ × ℚ), rows[i]? = some r → r.1 = lo + i ∧
        (i + 1 < rows.length → r.2 = binAverage q r.1 (r.1 + 1) ps) ∧ (i + 1 = rows.length → r.2 = 0) := by
  have hm : ps.map tke ≠ [] := by simpa using hne
  obtain ⟨hi, h1, h2, h3⟩ := maxQ_spec hm
  obtain ⟨lo, h4, h5, h6⟩ := minQ_spec hm
  obtain ⟨ph, hph, rfl⟩ := List.mem_map.mp h2
  obtain ⟨pl, hpl, rfl⟩ := List.mem_map.mp h5
  have hle : tke pl ≤ tke ph := h6 _ h2
  have hc : (0 : Int) ≤ ⌈tke ph - tke pl⌉ := Int.ceil_nonneg (by linarith)
  unfold qTKE
  rw [h4]; simp only [Res.bind]
  rw [h1]; simp only []
  rw [tkeRows_spec]
  simp only [Nat.zero_add]
  obtain ⟨n, hn⟩ := Int.eq_ofNat_of_zero_le hc
  rw [hn]
  simp only [Int.toNat_natCast]
  refine ⟨_, tke pl, tke ph, rfl, ⟨pl, hpl, rfl⟩, ⟨ph, hph, rfl⟩,
    fun p hp => ⟨h6 _ (List.mem_map_of_mem hp), h3 _ (List.mem_map_of_mem hp)⟩, ?_, ?_⟩
  · rw [hn]
    rcases n with _ | n <;> simp
  · intro i r hr
    rcases n with _ | n
    · simp at hr
    · rw [if_neg (by omega)] at hr ⊢
      simp only [Nat.add_sub_cancel] at hr ⊢
      rcases lt_or_ge i n with hi | hi
      · rw [List.getElem?_append_left (by simpa using hi)] at hr
        simp [hi] at hr
        subst hr
        refine ⟨by simp, ?_, by simp; omega⟩
        intro _
        simp only [add_assoc]
      · rw [List.getElem?_append_right (by simpa using hi)] at hr
        simp only [List.length_map, List.length_range] at hr
        have hi' : i = n := by
          by_contra hc
          rw [List.getElem?_eq_none (by simp; omega)] at hr
          cases hr
        subst hi'
        simp at hr
        subst hr
        exact ⟨rfl, by simp, by simp⟩

/-- **C89**, partial: for every non-empty history, `nubarTKE()` has one row per MeV from the smallest total kinetic energy
up to the largest, and every row but the last is the average neutron number of the fragments over the events of its bin
(zero if there are none). What is missing is the last bin: its row is zero whatever the events
(`C89_refuted`). -/
theorem C89_neutrons_partial (ps : List (PyFrag × PyFrag)) (hne : ps ≠ []) :
    ∃ (rows : List (ℚ × ℚ)) (lo hi : ℚ), nubarTKE (flat ps) = .ok rows ∧
      (∃ p ∈ ps, tke p = lo) ∧ (∃ p ∈ ps, tke p = hi) ∧ (∀ p ∈ ps, lo ≤ tke p ∧ tke p ≤ hi) ∧
      (rows.length : Int) = ⌈hi - lo⌉ ∧
      ∀ (i : Nat) (r : ℚ × ℚ), rows[i]? = some r → r.1 = lo + i ∧
        (i + 1 < rows.length → r.2 = binAverage (fun p => ((p.1.nn + p.2.nn : Int) : ℚ)) r.1 (r.1 + 1) ps) ∧
        (i + 1 = rows.length → r.2 = 0) := by
  obtain ⟨rows, lo, hi, h, rest⟩ := qTKE_spec (fun p => ((p.1.nn + p.2.nn : Int) : ℚ)) ps hne
  refine ⟨rows, lo, hi, ?_, rest⟩
  unfold nubarTKE nus
  rw [tkes_flat, total_flat]
  simp only [Res.bind, toQ, List.map_map]
  exact h

/-- **C89**, partial, photons: the same of `nubargTKE()`. -/
theorem C89_photons_partial (ps : List (PyFrag × PyFrag)) (hne : ps ≠ []) :
    ∃ (rows : List (ℚ × ℚ)) (lo hi : ℚ), nubargTKE (flat ps) = .ok rows ∧
      (∃ p ∈ ps, tke p = lo) ∧ (∃ p ∈ ps, tke p = hi) ∧ (∀ p ∈ ps, lo ≤ tke p ∧ tke p ≤ hi) ∧
      (rows.length : Int) = ⌈hi - lo⌉ ∧
      ∀ (i : Nat) (r : ℚ × ℚ), rows[i]? = some r → r.1 = lo + i ∧
        (i + 1 < rows.length → r.2 = binAverage (fun p => ((p.1.ng + p.2.ng : Int) : ℚ)) r.1 (r.1 + 1) ps) ∧
        (i + 1 = rows.length → r.2 = 0) := by
  obtain ⟨rows, lo, hi, h, rest⟩ := qTKE_spec (fun p => ((p.1.ng + p.2.ng : Int) : ℚ)) ps hne
  refine ⟨rows, lo, hi, ?_, rest⟩
  unfold nubargTKE nugs
  rw [tkes_flat, total_flat]
  simp only [Res.bind, toQ, List.map_map]
  exact h

/-- **C89** fails for every history whose events do not all have the same total kinetic energy and all emitted neutrons: the
last row says zero neutrons, although the events with the largest total kinetic energy belong to it or to its upper
end, and they belong to no other row. -/
theorem C89_refuted (ps : List (PyFrag × PyFrag)) (p q : PyFrag × PyFrag) (hp : p ∈ ps) (hq : q ∈ ps) (hpq : tke p < tke q)
    (hn : ∀ p ∈ ps, 0 < p.1.nn + p.2.nn) :
    ∃ (rows : List (ℚ × ℚ)) (x : ℚ) (top : PyFrag × PyFrag), nubarTKE (flat ps) = .ok rows ∧
      rows.getLast? = some (x, 0) ∧ top ∈ ps ∧ (∀ p ∈ ps, tke p ≤ tke top) ∧ x ≤ tke top ∧ tke top ≤ x + 1 ∧
      0 < top.1.nn + top.2.nn ∧
      ∀ (i : Nat) (r : ℚ × ℚ), rows[i]? = some r → i + 1 < rows.length → r.1 + 1 ≤ tke top := by
  obtain ⟨rows, lo, hi, h1, _, ⟨t, ht, rfl⟩, h4, h5, h6⟩ := C89_neutrons_partial ps (List.ne_nil_of_mem hp)
  have hlt : lo < tke t := lt_of_le_of_lt (h4 p hp).1 (lt_of_lt_of_le hpq (h4 q hq).2)
  have hpos : (0 : Int) < ⌈tke t - lo⌉ := Int.ceil_pos.mpr (by linarith)
  have hlen : 0 < rows.length := by omega
  have hc1 : tke t - lo ≤ (rows.length : ℚ) := by
    have := Int.le_ceil (tke t - lo)
    rw [← h5] at this
    exact_mod_cast this
  have hc2 : (rows.length : ℚ) < tke t - lo + 1 := by
    have := Int.ceil_lt_add_one (tke t - lo)
    rw [← h5] at this
    exact_mod_cast this
  have hl : rows[rows.length - 1]? = some (rows[rows.length - 1]'(by omega)) := List.getElem?_eq_getElem _
  obtain ⟨e1, _, e2⟩ := h6 _ _ hl
  have e2 := e2 (by omega)
  have hcast : ((rows.length - 1 : Nat) : ℚ) = (rows.length : ℚ) - 1 := by rw [Nat.cast_sub hlen]; simp
  rw [hcast] at e1
  refine ⟨rows, lo + ((rows.length : ℚ) - 1), t, h1, ?_, ht, fun p hp => (h4 p hp).2, by linarith, by linarith, hn t ht, ?_⟩
  · rw [List.getLast?_eq_getElem?, hl, ← e1, ← e2]
  · intro i r hr hi
    rw [(h6 i r hr).1]
    have : (i : ℚ) + 1 + 1 ≤ rows.length := by exact_mod_cast hi
    linarith

/-- **C89**, finding: `UTKE()` and `spinTKE()` raise an exception for every history, because they use a name `cgmf` that the
module does not define; with the intended value the row of a bin would be the average over the two fragments of its
events. -/
theorem C89_names (ps : List (PyFrag × PyFrag)) : UTKE none (flat ps) = .exit ∧ spinTKE none (flat ps) = .exit := by
  have key : ∀ col : PyFrag → ℚ, fragTKE none col (flat ps) = .exit := by
    intro col
    unfold fragTKE
    rw [tkes_flat]
    simp only [Res.bind]
    by_cases hne : ps = []
    · subst hne; rfl
    · obtain ⟨hi, h1, _⟩ := maxQ_spec (l := ps.map tke) (by simpa using hne)
      obtain ⟨lo, h2, _⟩ := minQ_spec (l := ps.map tke) (by simpa using hne)
      rw [h2]; simp only []
      rw [h1]
  exact ⟨key _, key _⟩

/-- Total kinetic energies 180, 177 and 178.5 with 3, 1 and 1 neutrons: rows from 177; the event with 180 MeV is lost. -/
def tkeEvents : List (PyFrag × PyFrag) :=
  meEvents ++ [({ tkFrag 98 [] [] 0 with ke := 199 / 2 }, { tkFrag 137 [vx] [(1, 1), (4, 9)] 0 with ke := 79 })]

example : nubarTKE (flat tkeEvents) = .ok [(177, 1), (178, 1), (179, 0)] ∧
    nubargTKE (flat tkeEvents) = .ok [(177, 1), (178, 2), (179, 0)] ∧
    UTKE none (flat tkeEvents) = .exit ∧ UTKE (some (tkeEvents.map tke)) (flat tkeEvents) = .ok [(177, 10), (178, 10), (179, 0)] := by
  decide +kernel

example : ∃ (rows : List (ℚ × ℚ)) (x : ℚ) (top : PyFrag × PyFrag), nubarTKE (flat tkeEvents) = .ok rows ∧
      rows.getLast? = some (x, 0) ∧ top ∈ tkeEvents ∧ (∀ p ∈ tkeEvents, tke p ≤ tke top) ∧ x ≤ tke top ∧ tke top ≤ x + 1 ∧
      0 < top.1.nn + top.2.nn ∧
      ∀ (i : Nat) (r : ℚ × ℚ), rows[i]? = some r → i + 1 < rows.length → r.1 + 1 ≤ tke top :=
  C89_refuted tkeEvents (tkeEvents[1]) (tkeEvents[0]) (by decide +kernel) (by decide +kernel) (by decide +kernel)
    (by decide +kernel)

/-! ## C90 -/

/-- The photons of an event that `pfgs` is asked for: not below the threshold and, with a time window, of an age in it. -/
def asked (eth : ℚ) (window : Option (ℚ × ℚ)) (f : PyFrag) : List ℚ :=
  (((f.phot.map (·.e)).zip f.ages).filter fun x => decide (eth ≤ x.1) &&
    match window with
    | none => true
    | some w => decide (w.1 ≤ x.2 ∧ x.2 ≤ w.2)).map Prod.fst

theorem zip_flatten (fs : List PyFrag) (hl : ∀ f ∈ fs, f.ages.length = f.phot.length) :
    (gElab fs).flatten.length = (fs.map (·.ages)).flatten.length ∧
      (gElab fs).flatten.zip (fs.map (·.ages)).flatten = fs.flatMap fun f => (f.phot.map (·.e)).zip f.ages := by
  unfold gElab
  induction fs with
  | nil => exact ⟨rfl, rfl⟩
  | cons f gs ih =>
      obtain ⟨i1, i2⟩ := ih (fun g hg => hl g (by simp [hg]))
      have := hl f (by simp)
      simp only [List.map_cons, List.flatten_cons, List.flatMap_cons, List.length_append]
      refine ⟨by rw [i1]; simp [this], ?_⟩
      rw [List.zip_append (by simp [this]), i2]

theorem select_mask {α : Type} (p : α → ℚ → Bool) (as : List α) (es : List ℚ) (h : as.length = es.length) :
    (bcast p as es).bind (fun mask => select id mask es) = .ok (((es.zip as).filter fun x => p x.2 x.1).map Prod.fst) := by
  unfold bcast
  rw [if_pos h]
  simp only [Res.bind]
  rw [select_run (by simp [h])]
  congr 1
  clear h
  induction as generalizing es with
  | nil => simp
  | cons a as ih =>
      cases es with
      | nil => simp
      | cons e es =>
          have := ih es
          simp only [List.zipWith_cons_cons, List.zip_cons_cons, List.filter_cons, id]
          by_cases hp : p a e
          · simp only [hp, if_true, List.map_cons]; rw [← this]; rfl
          · simp only [hp, if_false, Bool.false_eq_true]; rw [← this]; rfl

/-- The photons that enter `pfgs` are those asked for. -/
theorem pfgsEnergies_spec (eth : ℚ) (window : Option (ℚ × ℚ)) (fs : List PyFrag)
    (hl : ∀ f ∈ fs, f.ages.length = f.phot.length) :
    pfgsEnergies eth window fs = .ok (fs.flatMap (asked eth window)) := by
  obtain ⟨h1, h2⟩ := zip_flatten fs hl
  have fin : ∀ pr : ℚ × ℚ → Bool, (((gElab fs).flatten.zip (fs.map (·.ages)).flatten).filter pr).map Prod.fst
      = fs.flatMap fun f => (((f.phot.map (·.e)).zip f.ages).filter pr).map Prod.fst := by
    intro pr
    rw [h2, List.filter_flatMap, List.map_flatMap]
  unfold pfgsEnergies
  cases window with
  | none =>
      simp only []
      have : ((gElab fs).flatten.filter fun e => decide (eth ≤ e))
          = (((gElab fs).flatten.zip (fs.map (·.ages)).flatten).filter fun x => decide (eth ≤ x.1)).map Prod.fst := by
        conv_lhs => rw [← List.map_fst_zip (l₁ := (gElab fs).flatten) (l₂ := (fs.map (·.ages)).flatten) h1.le]
        rw [List.filter_map]
        rfl
      rw [this, fin]
      unfold asked
      simp
  | some w =>
      obtain ⟨t0, t1⟩ := w
      simp only []
      rw [select_mask _ _ _ h1.symm, fin]
      unfold asked
      congr 1
      apply List.flatMap_congr
      intro f _
      congr 1
      apply List.filter_congr
      intro x _
      simp only [Bool.decide_and]
      rw [Bool.and_comm]

theorem zipWith_scale (m : ℚ) : ∀ (y w : List ℚ),
    (List.zipWith (fun (v w : ℚ) => v * w) (y.map (· * m)) w).sum = (List.zipWith (fun (v w : ℚ) => v * w) y w).sum * m := by
  intro y
  induction y with
  | nil => intro w; simp
  | cons a y ih =>
      intro w
      cases w with
      | nil => simp
      | cons b w => simp only [List.map_cons, List.zipWith_cons_cons, List.sum_cons, ih]; ring

/-- **C90**, partial: on every increasing grid on which some photon asked for lies, `pfgs` succeeds, has no negative entry, and
its integral is the average number of photons per event (the recorded multiplicity). That holds of every
threshold and time window, so that the integral is not the number of photons asked for (`C90_refuted`), which
is what is missing. -/
theorem C90_integral_partial (eth : ℚ) (window : Option (ℚ × ℚ)) (a b : ℚ) (es : List ℚ) (ps : List (PyFrag × PyFrag))
    (hs : (a :: b :: es).Pairwise (· < ·)) (hl : ∀ f ∈ flat ps, f.ages.length = f.phot.length)
    (h0 : ∀ p ∈ ps, Counted p)
    (hx : ∃ x ∈ (flat ps).flatMap (asked eth window), a ≤ x ∧ ∀ z ∈ (b :: es).getLast?, x ≤ z) :
    ∃ y, pfgs eth window (a :: b :: es) (flat ps) = .ok y ∧ (∀ v ∈ y, 0 ≤ v) ∧
      (List.zipWith (fun (v w : ℚ) => v * w) y (List.zipWith (fun q p => q - p) (b :: es) (a :: b :: es))).sum
        = average (fun p => ((p.1.phot ++ p.2.phot).length : ℚ)) ps := by
  obtain ⟨y, h1, h2, h3⟩ := C69_normalised a b es _ hs hx
  have hne : ps ≠ [] := by
    rintro rfl
    obtain ⟨x, hx, _⟩ := hx
    simp [flat] at hx
  have hm : mean (toQ (ps.map fun p => p.1.ng + p.2.ng)) = .ok (average (fun p => ((p.1.phot ++ p.2.phot).length : ℚ)) ps) := by
    rw [mean_ok (by simpa [toQ] using hne)]
    unfold average toQ
    rw [List.map_map, List.length_map]
    congr 3
    apply List.map_congr_left
    intro p hp
    obtain ⟨_, _, _, _, g1, g2⟩ := h0 p hp
    simp [g1, g2]
  refine ⟨y.map (· * average (fun p => ((p.1.phot ++ p.2.phot).length : ℚ)) ps), ?_, ?_, ?_⟩
  · unfold pfgs nugs
    rw [pfgsEnergies_spec eth window _ hl]
    simp only [Res.bind]
    rw [h1]; simp only []
    rw [total_flat]; simp only []
    rw [hm]
  · intro v hv
    obtain ⟨u, hu, rfl⟩ := List.mem_map.mp hv
    apply mul_nonneg (h2 u hu)
    unfold average
    apply div_nonneg _ (by positivity)
    apply List.sum_nonneg
    intro x hx
    obtain ⟨p, _, rfl⟩ := List.mem_map.mp hx
    positivity
  · rw [zipWith_scale, h3, one_mul]

/-- **C90** fails whenever a photon is not asked for: the spectrum integrates to more than the average number of photons
asked for. -/
theorem C90_refuted (eth : ℚ) (window : Option (ℚ × ℚ)) (a b : ℚ) (es : List ℚ) (ps : List (PyFrag × PyFrag))
    (hs : (a :: b :: es).Pairwise (· < ·)) (hl : ∀ f ∈ flat ps, f.ages.length = f.phot.length)
    (h0 : ∀ p ∈ ps, Counted p)
    (hx : ∃ x ∈ (flat ps).flatMap (asked eth window), a ≤ x ∧ ∀ z ∈ (b :: es).getLast?, x ≤ z)
    (hcut : ∃ p ∈ ps, (asked eth window p.1 ++ asked eth window p.2).length ≠ (p.1.phot ++ p.2.phot).length) :
    ∃ y, pfgs eth window (a :: b :: es) (flat ps) = .ok y ∧
      average (fun p => ((asked eth window p.1 ++ asked eth window p.2).length : ℚ)) ps <
        (List.zipWith (fun (v w : ℚ) => v * w) y (List.zipWith (fun q p => q - p) (b :: es) (a :: b :: es))).sum := by
  obtain ⟨y, h1, _, h3⟩ := C90_integral_partial eth window a b es ps hs hl h0 hx
  refine ⟨y, h1, ?_⟩
  rw [h3]
  obtain ⟨p0, hp0, hc⟩ := hcut
  have hps : (0 : ℚ) < ps.length := by exact_mod_cast List.length_pos_iff.mpr (List.ne_nil_of_mem hp0)
  have hle1 : ∀ f : PyFrag, (asked eth window f).length ≤ f.phot.length := by
    intro f
    unfold asked
    rw [List.length_map]
    refine (List.length_filter_le _ _).trans ?_
    rw [List.length_zip]
    simp
  have hle : ∀ p : PyFrag × PyFrag, (asked eth window p.1 ++ asked eth window p.2).length ≤ (p.1.phot ++ p.2.phot).length := by
    intro p
    have h1 := hle1 p.1
    have h2 := hle1 p.2
    simp only [List.length_append]
    omega
  unfold average
  apply div_lt_div_of_pos_right _ hps
  apply List.sum_lt_sum
  · intro p _; exact_mod_cast hle p
  · exact ⟨p0, hp0, by exact_mod_cast lt_of_le_of_ne (hle p0) hc⟩

/-- With a threshold of 1 MeV three of the four photons enter, but the integral stays at two photons per event. -/
example : (∀ p ∈ meEvents, Counted p) ∧ pfgs 0 none [0, 1, 2, 4] (flat meEvents) = .ok [1 / 2, 1, 1 / 4] ∧
    pfgs 1 none [0, 1, 2, 4] (flat meEvents) = .ok [0, 4 / 3, 1 / 3] ∧
    average (fun p => ((asked 1 none p.1 ++ asked 1 none p.2).length : ℚ)) meEvents = 3 / 2 ∧
    pfgs 0 (some (3, 9)) [0, 1, 2, 4] (flat meEvents) = .ok [0, 1, 1 / 2] ∧
    average (fun p => ((asked 0 (some (3, 9)) p.1 ++ asked 0 (some (3, 9)) p.2).length : ℚ)) meEvents = 1 := by
  decide +kernel

example : ∃ y, pfgs 1 none [0, 1, 2, 4] (flat meEvents) = .ok y ∧
      average (fun p => ((asked 1 none p.1 ++ asked 1 none p.2).length : ℚ)) meEvents <
        (List.zipWith (fun (v w : ℚ) => v * w) y (List.zipWith (fun q p => q - p) [1, 2, 4] [0, 1, 2, 4])).sum :=
  C90_refuted 1 none 0 1 [2, 4] meEvents (by decide +kernel) (by decide +kernel) (by decide +kernel)
    ⟨1, by decide +kernel, by decide +kernel⟩ ⟨_, List.mem_cons_self, by decide +kernel⟩

/-! ## C91 -/

theorem preDirs_flat (ps : List (PyFrag × PyFrag)) : preDirs (flat ps) = ps.flatMap preNeutrons := by
  unfold preDirs preNu
  rw [(evens_flat _ ps).2, (evens_flat _ ps).2, List.zip_map', List.map_map, ← List.flatMap_def]
  congr 1

/-- **C91.** When light and heavy fragments emitted a neutron somewhere in the history, `nangles` succeeds; the three lists are
the cosines with respect to the third axis of the neutrons not below the threshold: of all events (pre-fission neutrons
included if asked for), of the light fragments and of the heavy fragments, each neutron once. -/
theorem C91_neutrons (eth : ℚ) (dirs : PyFrag → List Vec4) (withPre : Bool) (ps : List (PyFrag × PyFrag))
    (hl : ∃ p ∈ ps, dirs p.1 ≠ []) (hh : ∃ p ∈ ps, dirs p.2 ≠ []) :
    ∃ a l h, nangles eth dirs withPre (flat ps) = .ok (a, l, h) ∧
      l = ((ps.flatMap fun p => dirs p.1).filter fun x => decide (eth ≤ x.e)).map (·.w) ∧
      h = ((ps.flatMap fun p => dirs p.2).filter fun x => decide (eth ≤ x.e)).map (·.w) ∧
      a.Perm (((ps.flatMap fun p => dirs p.1 ++ dirs p.2 ++ if withPre then preNeutrons p else []).filter
        fun x => decide (eth ≤ x.e)).map (·.w)) := by
  have pick : ∀ f : PyFrag × PyFrag → List Vec4, (∃ p ∈ ps, f p ≠ []) → ps.flatMap f ≠ [] := by
    rintro f ⟨p, hp, hx⟩
    obtain ⟨x, hx⟩ := List.exists_mem_of_ne_nil _ hx
    exact List.ne_nil_of_mem (List.mem_flatMap.mpr ⟨p, hp, hx⟩)
  have e1 : (evens ((flat ps).map dirs)).flatten = ps.flatMap fun p => dirs p.1 := by
    rw [(evens_flat _ ps).1, List.flatMap_def]
  have e2 : (odds ((flat ps).map dirs)).flatten = ps.flatMap fun p => dirs p.2 := by
    rw [(evens_flat _ ps).2, List.flatMap_def]
  have hA := pick (fun p => dirs p.1) hl
  have hB := pick (fun p => dirs p.2) hh
  unfold nangles
  simp only []
  rw [e1, e2, preDirs_flat]
  unfold thirdCos
  rw [if_neg (by simp only [List.append_eq_nil_iff, not_and]; intro h; exact absurd h.1 hA), if_neg hA, if_neg hB]
  refine ⟨_, _, _, rfl, rfl, rfl, ?_⟩
  apply List.Perm.map
  apply List.Perm.filter
  clear e1 e2 hA hB hl hh pick
  induction ps with
  | nil => cases withPre <;> exact List.Perm.refl _
  | cons p ps ih =>
      simp only [List.flatMap_cons]
      refine List.Perm.trans ?_ (List.Perm.append_left _ ih)
      rw [List.perm_iff_count]
      intro x
      cases withPre <;> simp [List.count_append] <;> omega

/-- **C91**, the failing case: without any neutron from light fragments, or without any from heavy ones, `nangles` raises an
exception instead of returning an empty list. -/
theorem C91_empty (eth : ℚ) (dirs : PyFrag → List Vec4) (withPre : Bool) (ps : List (PyFrag × PyFrag))
    (h : (∀ p ∈ ps, dirs p.1 = []) ∨ ∀ p ∈ ps, dirs p.2 = []) :
    nangles eth dirs withPre (flat ps) = .exit := by
  have e1 : (evens ((flat ps).map dirs)).flatten = ps.flatMap fun p => dirs p.1 := by
    rw [(evens_flat _ ps).1, List.flatMap_def]
  have e2 : (odds ((flat ps).map dirs)).flatten = ps.flatMap fun p => dirs p.2 := by
    rw [(evens_flat _ ps).2, List.flatMap_def]
  have bind_exit : ∀ {α β : Type} (r : Res α) (f : α → Res β), (∀ x, f x = .exit) → r ≠ .ub → r.bind f = .exit := by
    intro α β r f hf hr
    cases r with
    | ok x => exact hf x
    | exit => rfl
    | ub => exact absurd rfl hr
  have nub : ∀ ns, thirdCos eth ns ≠ .ub := by intro ns; unfold thirdCos; split <;> simp
  unfold nangles
  simp only []
  rw [e1, e2]
  rcases h with h | h
  · apply bind_exit _ _ _ (nub _)
    intro x
    rw [show (ps.flatMap fun p => dirs p.1) = [] from List.flatMap_eq_nil_iff.mpr h]
    rfl
  · apply bind_exit _ _ _ (nub _)
    intro x
    apply bind_exit _ _ _ (nub _)
    intro y
    rw [show (ps.flatMap fun p => dirs p.2) = [] from List.flatMap_eq_nil_iff.mpr h]
    rfl

theorem momLen_sq (p : ℚ × ℚ × ℚ) : momLen p ^ 2 = (p.1 : ℝ) ^ 2 + (p.2.1 : ℝ) ^ 2 + (p.2.2 : ℝ) ^ 2 :=
  Real.sq_sqrt (by positivity)

theorem momLen_pos {p : ℚ × ℚ × ℚ} (h : p ≠ (0, 0, 0)) : 0 < momLen p := by
  apply Real.sqrt_pos.mpr
  by_contra hc
  apply h
  obtain ⟨x, y, z⟩ := p
  simp only [not_lt] at hc
  have h1 : (x : ℝ) ^ 2 = 0 := by nlinarith [sq_nonneg (x : ℝ), sq_nonneg (y : ℝ), sq_nonneg (z : ℝ)]
  have h2 : (y : ℝ) ^ 2 = 0 := by nlinarith [sq_nonneg (x : ℝ), sq_nonneg (y : ℝ), sq_nonneg (z : ℝ)]
  have h3 : (z : ℝ) ^ 2 = 0 := by nlinarith [sq_nonneg (x : ℝ), sq_nonneg (y : ℝ), sq_nonneg (z : ℝ)]
  simp at h1 h2 h3
  simp [h1, h2, h3]

theorem mapRes_ok {α β : Type} {f : α → Res β} {g : α → β} {l : List α} (h : ∀ a ∈ l, f a = .ok (g a)) :
    mapRes f l = .ok (l.map g) := by
  induction l with
  | nil => rfl
  | cons a l ih =>
      rw [mapRes, h a (by simp)]
      simp only [Res.bind]
      rw [ih (fun b hb => h b (by simp [hb]))]
      rfl

/-- **C91**, fragments: for every history in which no fragment is at rest, `FFangles` gives one number in `[-1, 1]` per fragment,
which times the length of the momentum is its third component; the two of an event with opposite momenta
add up to zero. -/
theorem C91_fragments (after : Bool) (ps : List (PyFrag × PyFrag))
    (h : ∀ f ∈ flat ps, (if after then f.post else f.pre) ≠ (0, 0, 0)) :
    ∃ cs : List (ℝ × ℝ), FFangles after (flat ps) = .ok (cs.flatMap fun c => [c.1, c.2]) ∧
      List.Forall₂ (fun (p : PyFrag × PyFrag) (c : ℝ × ℝ) =>
        (c.1 * momLen (if after then p.1.post else p.1.pre) = ((if after then p.1.post else p.1.pre).2.2 : ℝ) ∧
          |c.1| ≤ 1) ∧
        (c.2 * momLen (if after then p.2.post else p.2.pre) = ((if after then p.2.post else p.2.pre).2.2 : ℝ) ∧
          |c.2| ≤ 1) ∧
        ((if after then p.2.post else p.2.pre) = -(if after then p.1.post else p.1.pre) → c.1 + c.2 = 0)) ps cs := by
  have one : ∀ q : ℚ × ℚ × ℚ, q ≠ (0, 0, 0) → ((q.2.2 : ℝ) / momLen q) * momLen q = (q.2.2 : ℝ) ∧
      |(q.2.2 : ℝ) / momLen q| ≤ 1 := by
    intro q hq
    have hp := momLen_pos hq
    refine ⟨by field_simp, ?_⟩
    rw [abs_div, abs_of_pos hp, div_le_one hp]
    apply abs_le_of_sq_le_sq _ hp.le
    rw [momLen_sq]
    nlinarith [sq_nonneg (q.1 : ℝ), sq_nonneg (q.2.1 : ℝ)]
  refine ⟨ps.map fun p => (((if after then p.1.post else p.1.pre).2.2 : ℝ) / momLen (if after then p.1.post else p.1.pre),
    ((if after then p.2.post else p.2.pre).2.2 : ℝ) / momLen (if after then p.2.post else p.2.pre)), ?_, ?_⟩
  · unfold FFangles
    rw [mapRes_ok (g := fun f => ((if after then f.post else f.pre).2.2 : ℝ) / momLen (if after then f.post else f.pre))
      (fun f hf => by unfold ffAngle; rw [if_neg (h f hf)])]
    congr 1
    unfold flat
    rw [List.map_flatMap, List.flatMap_map]
    rfl
  · rw [List.forall₂_map_right_iff]
    have hf : ∀ p ∈ ps, p.1 ∈ flat ps ∧ p.2 ∈ flat ps := by
      intro p hp
      unfold flat
      exact ⟨List.mem_flatMap.mpr ⟨p, hp, by simp⟩, List.mem_flatMap.mpr ⟨p, hp, by simp⟩⟩
    rw [List.forall₂_same]
    intro p hp
    refine ⟨one _ (h _ (hf p hp).1), one _ (h _ (hf p hp).2), ?_⟩
    intro e
    rw [e]
    have : momLen (-(if after then p.1.post else p.1.pre)) = momLen (if after then p.1.post else p.1.pre) := by
      unfold momLen; simp
    rw [this]
    simp only [Prod.snd_neg]
    push_cast
    ring

/-- The neutrons of an event with the momentum of its light fragment. -/
def besideLight (mom : PyFrag → ℚ × ℚ × ℚ) (ns : PyFrag × PyFrag → List Vec4) (p : PyFrag × PyFrag) :
    List ((ℚ × ℚ × ℚ) × Vec4) := (ns p).map fun x => (mom p.1, x)

/-- `c` is the cosine of the angle between the neutron and the fragment, for a direction of length one. -/
def IsCos (x : (ℚ × ℚ × ℚ) × Vec4) (c : ℝ) : Prop :=
  c * momLen x.1 = (pdot x.1 x.2 : ℝ) ∧ |c| ≤ dirLen x.2

theorem withLight_flat (mom : PyFrag → ℚ × ℚ × ℚ) (ns : PyFrag × PyFrag → List Vec4) (ps : List (PyFrag × PyFrag)) :
    withLight (ps.map fun p => mom p.1) (ps.map ns) = ps.flatMap (besideLight mom ns) := by
  unfold withLight
  rw [List.zip_map', List.map_map, ← List.flatMap_def]
  rfl

theorem nFcos_isCos (x : (ℚ × ℚ × ℚ) × Vec4) (h : x.1 ≠ (0, 0, 0)) : ∃ c, nFcos x.1 x.2 = .ok c ∧ IsCos x c := by
  have hp := momLen_pos h
  obtain ⟨⟨a, b, d⟩, n⟩ := x
  unfold nFcos
  rw [if_neg h]
  refine ⟨_, rfl, ?_, ?_⟩
  · unfold pdot
    push_cast
    field_simp
  · set L := momLen (a, b, d) with hL
    have hsq : L ^ 2 = (a : ℝ) ^ 2 + (b : ℝ) ^ 2 + (d : ℝ) ^ 2 := momLen_sq (a, b, d)
    simp only []
    have hd : dirLen n ^ 2 = (n.u : ℝ) ^ 2 + (n.v : ℝ) ^ 2 + (n.w : ℝ) ^ 2 := Real.sq_sqrt (by positivity)
    have hd0 : 0 ≤ dirLen n := Real.sqrt_nonneg _
    apply abs_le_of_sq_le_sq _ hd0
    have e : (n.u : ℝ) * ((a : ℝ) / L) + (n.v : ℝ) * ((b : ℝ) / L) + (n.w : ℝ) * ((d : ℝ) / L)
        = ((n.u : ℝ) * a + n.v * b + n.w * d) / L := by field_simp
    rw [e, div_pow, div_le_iff₀ (by positivity), hsq, hd]
    nlinarith [sq_nonneg ((n.u : ℝ) * b - n.v * a), sq_nonneg ((n.u : ℝ) * d - n.w * a),
      sq_nonneg ((n.v : ℝ) * d - n.w * b)]

theorem nFsum_spec (eth : ℚ) (ns : List ((ℚ × ℚ × ℚ) × Vec4)) (hne : ns ≠ []) (h : ∀ x ∈ ns, x.1 ≠ (0, 0, 0)) :
    ∃ cs, nFsum eth ns = .ok cs ∧ List.Forall₂ IsCos (ns.filter fun x => decide (eth ≤ x.2.e)) cs := by
  unfold nFsum
  rw [if_neg hne]
  have h' : ∀ x ∈ ns.filter fun x => decide (eth ≤ x.2.e), x.1 ≠ (0, 0, 0) := fun x hx => h x (List.mem_filter.mp hx).1
  generalize ns.filter (fun x => decide (eth ≤ x.2.e)) = l at h'
  induction l with
  | nil => exact ⟨[], rfl, List.Forall₂.nil⟩
  | cons x l ih =>
      obtain ⟨c, h1, h2⟩ := nFcos_isCos x (h' x (by simp))
      obtain ⟨cs, h3, h4⟩ := ih (fun y hy => h' y (by simp [hy]))
      refine ⟨c :: cs, ?_, List.Forall₂.cons h2 h4⟩
      rw [mapRes, h1]
      simp only [Res.bind]
      rw [h3]

/-- **C91**, neutrons and fragments: when light and heavy fragments emitted a neutron somewhere in the history and no light
fragment is at rest, `nFangles` succeeds; every neutron not below the threshold gives one number, its scalar product with
the direction of the light fragment of its own event, also for neutrons of the heavy fragment and for
pre-fission neutrons; the number is at most the length of the neutron's direction. -/
theorem C91_between (eth : ℚ) (after withPre : Bool) (ps : List (PyFrag × PyFrag))
    (hl : ∃ p ∈ ps, p.1.lab ≠ []) (hh : ∃ p ∈ ps, p.2.lab ≠ [])
    (hm : ∀ p ∈ ps, (if after then p.1.post else p.1.pre) ≠ (0, 0, 0)) :
    ∃ a l h, nFangles eth after withPre (flat ps) = .ok (a, l, h) ∧
      List.Forall₂ IsCos ((ps.flatMap (besideLight (fun f => if after then f.post else f.pre) fun p => p.1.lab)).filter
        fun x => decide (eth ≤ x.2.e)) l ∧
      List.Forall₂ IsCos ((ps.flatMap (besideLight (fun f => if after then f.post else f.pre) fun p => p.2.lab)).filter
        fun x => decide (eth ≤ x.2.e)) h ∧
      List.Forall₂ IsCos ((ps.flatMap (besideLight (fun f => if after then f.post else f.pre) fun p => p.1.lab) ++
        ps.flatMap (besideLight (fun f => if after then f.post else f.pre) fun p => p.2.lab) ++
        if withPre then ps.flatMap (besideLight (fun f => if after then f.post else f.pre) preNeutrons) else []).filter
        fun x => decide (eth ≤ x.2.e)) a := by
  set mom : PyFrag → ℚ × ℚ × ℚ := fun f => if after then f.post else f.pre with hmom
  have pick : ∀ f : PyFrag × PyFrag → List Vec4, (∃ p ∈ ps, f p ≠ []) → ps.flatMap (besideLight mom f) ≠ [] := by
    rintro f ⟨p, hp, hx⟩
    obtain ⟨x, hx⟩ := List.exists_mem_of_ne_nil _ hx
    exact List.ne_nil_of_mem (List.mem_flatMap.mpr ⟨p, hp, List.mem_map_of_mem (f := fun x => (mom p.1, x)) hx⟩)
  have rest : ∀ f : PyFrag × PyFrag → List Vec4, ∀ x ∈ ps.flatMap (besideLight mom f), x.1 ≠ (0, 0, 0) := by
    intro f x hx
    obtain ⟨p, hp, hx⟩ := List.mem_flatMap.mp hx
    obtain ⟨n, _, rfl⟩ := List.mem_map.mp hx
    exact hm p hp
  have e0 : evens ((flat ps).map mom) = ps.map fun p => mom p.1 := (evens_flat _ ps).1
  have e1 : evens ((flat ps).map fun f => f.lab) = ps.map fun p => p.1.lab := (evens_flat _ ps).1
  have e2 : odds ((flat ps).map fun f => f.lab) = ps.map fun p => p.2.lab := (evens_flat _ ps).2
  have e3 : (((preNu (flat ps)).zip (odds ((flat ps).map (·.pren)))).map fun x => if 0 < x.1 then x.2 else [])
      = ps.map preNeutrons := by
    unfold preNu
    rw [(evens_flat _ ps).2, (evens_flat _ ps).2, List.zip_map', List.map_map]
    rfl
  have hA := pick (fun p => p.1.lab) hl
  have hB := pick (fun p => p.2.lab) hh
  unfold nFangles
  simp only []
  rw [e0, e1, e2, e3, withLight_flat mom fun p => p.1.lab, withLight_flat mom fun p => p.2.lab, withLight_flat]
  obtain ⟨l, l1, l2⟩ := nFsum_spec eth _ hA (rest fun p => p.1.lab)
  obtain ⟨h, h1, h2⟩ := nFsum_spec eth _ hB (rest fun p => p.2.lab)
  obtain ⟨a, a1, a2⟩ := nFsum_spec eth (ps.flatMap (besideLight mom fun p => p.1.lab) ++
        ps.flatMap (besideLight mom fun p => p.2.lab) ++
        if withPre then ps.flatMap (besideLight mom preNeutrons) else [])
    (by simp only [ne_eq, List.append_eq_nil_iff, not_and]; intro h; exact absurd h.1 hA)
    (by
      intro x hx
      rcases List.mem_append.mp hx with hx | hx
      · rcases List.mem_append.mp hx with hx | hx
        · exact rest _ x hx
        · exact rest _ x hx
      · cases withPre
        · simp at hx
        · exact rest preNeutrons x (by simpa using hx))
  refine ⟨a, l, h, ?_, l2, h2, a2⟩
  rw [a1]; simp only [Res.bind]
  rw [l1]; simp only []
  rw [h1]

example : nangles 2 (·.lab) true (flat meEvents) = .ok ([0, 0, 0, -1], [0, 0], [0]) ∧
    nangles 0 (·.lab) false (flat meEvents) = .ok ([0, 0, 4 / 5, 0], [0, 0], [4 / 5, 0]) ∧
    nangles 0 (·.lab) true (flat [(meEvents[1]'(by decide +kernel))]) = .exit := by decide +kernel

example : ∃ cs : List (ℝ × ℝ), FFangles false (flat meEvents) = .ok (cs.flatMap fun c => [c.1, c.2]) ∧
    cs.length = 2 := by
  obtain ⟨cs, h1, h2⟩ := C91_fragments false meEvents (by decide +kernel)
  exact ⟨cs, h1, h2.length_eq.symm⟩

example : ∃ a l h, nFangles 0 true true (flat meEvents) = .ok (a, l, h) ∧ l.length = 2 ∧ h.length = 2 ∧ a.length = 5 := by
  obtain ⟨a, l, h, h1, h2, h3, h4⟩ := C91_between 0 true true meEvents ⟨_, List.mem_cons_self, by decide +kernel⟩
    ⟨_, List.mem_cons_self, by decide +kernel⟩ (by decide +kernel)
  exact ⟨a, l, h, h1, h2.length_eq.symm.trans (by decide +kernel), h3.length_eq.symm.trans (by decide +kernel),
    h4.length_eq.symm.trans (by decide +kernel)⟩

/-! ## C92 -/

/-- **C92.** For energies and resolutions of the same shape and without negative entries, the resolutions given as a number
or as a numpy array, `gammaSpec` returns charge and mass (after emission if asked for) of exactly the fragments that for
every requested energy have a photon within its resolution, in the order of the history. -/
theorem C92_gates (eg de : Arg) (post : Bool) (fs : List PyFrag) (hlist : ∀ xs, de ≠ .list xs) (hs : eg.shape = de.shape)
    (he : ∀ x ∈ eg.entries, 0 ≤ x) (hd : ∀ x ∈ de.entries, 0 ≤ x) :
    gammaSpec eg de post fs = .ok (some ((fs.filter fun f => decide (∀ w ∈ eg.entries.zip de.entries,
      ∃ g ∈ f.phot, |g.e - w.1| ≤ w.2)).map fun f => (f.z, if post then f.a - f.nn else f.a))) := by
  unfold gammaSpec
  rw [if_neg (by simpa using he)]
  have hn : de.anyNeg = .ok false := by
    cases de with
    | scalar x => simpa [Arg.anyNeg, Arg.entries] using hd
    | list xs => exact absurd rfl (hlist xs)
    | array xs => simpa [Arg.anyNeg, Arg.entries] using hd
  rw [hn]
  simp only [Res.bind]
  rw [if_neg (by simp), if_neg (by simpa using hs)]
  have hg : ∀ (gs : List Vec4) (es ds : List ℚ), (gates (gs.map (·.e)) es ds).all id
      = decide (∀ w ∈ es.zip ds, ∃ g ∈ gs, |g.e - w.1| ≤ w.2) := by
    intro gs es
    induction es with
    | nil => intro ds; simp [gates]
    | cons e es ih =>
        intro ds
        cases ds with
        | nil => simp [gates]
        | cons d ds =>
            rw [gates, List.all_cons, ih ds, List.zip_cons_cons, Bool.eq_iff_iff]
            simp only [id, Bool.and_eq_true, List.any_eq_true, decide_eq_true_eq, List.forall_mem_cons, List.mem_map]
            refine and_congr ?_ Iff.rfl
            constructor
            · rintro ⟨_, ⟨g, hg, rfl⟩, h1, h2⟩
              exact ⟨g, hg, abs_le.mpr ⟨by linarith, by linarith⟩⟩
            · rintro ⟨g, hg, h⟩
              obtain ⟨h1, h2⟩ := abs_le.mp h
              exact ⟨_, ⟨g, hg, rfl⟩, by linarith, by linarith⟩
  simp only [hg]
  congr 3
  funext f
  cases post <;> simp

/-- **C92**, arguments that are refused: a negative energy or (in a number or an array) a negative resolution, or different
shapes, give no list. -/
theorem C92_refused (eg de : Arg) (post : Bool) (fs : List PyFrag)
    (h : (∃ x ∈ eg.entries, x < 0) ∨ ((∀ xs, de ≠ .list xs) ∧ ((∃ x ∈ de.entries, x < 0) ∨ eg.shape ≠ de.shape))) :
    gammaSpec eg de post fs = .ok none := by
  unfold gammaSpec
  by_cases h1 : ∃ x ∈ eg.entries, x < 0
  · rw [if_pos (by simpa using h1)]
  · rw [if_neg (by simpa using h1)]
    rcases h with h | ⟨h2, h3⟩
    · exact absurd h h1
    · have hn : de.anyNeg = .ok (decide (∃ x ∈ de.entries, x < 0)) := by
        cases de with
        | scalar x => simp [Arg.anyNeg, Arg.entries]
        | list xs => exact absurd rfl (h2 xs)
        | array xs => simp only [Arg.anyNeg, Arg.entries]; congr 1; rw [Bool.eq_iff_iff]; simp; exact decide_eq_true_iff.symm
      rw [hn]
      simp only [Res.bind]
      by_cases h4 : ∃ x ∈ de.entries, x < 0
      · rw [if_pos (by simpa using h4)]
      · rw [if_neg (by simpa using h4), if_pos (h3.resolve_left h4)]

/-- **C92**, finding: resolutions given as a Python list raise an exception. -/
theorem C92_list (eg : Arg) (ds : List ℚ) (post : Bool) (fs : List PyFrag) (he : ∀ x ∈ eg.entries, 0 ≤ x) :
    gammaSpec eg (.list ds) post fs = .exit := by
  unfold gammaSpec
  rw [if_neg (by simpa using he)]
  rfl

example : gammaSpec (.list [1, 2]) (.array [1 / 10, 0]) true (flat meEvents) = .ok (some [(40, 94)]) ∧
    gammaSpec (.scalar 1) (.scalar (1 / 2)) false (flat meEvents) = .ok (some [(40, 96), (40, 139), (40, 100)]) ∧
    gammaSpec (.list [1, 2]) (.scalar 1) true (flat meEvents) = .ok none ∧
    gammaSpec (.list [1, 2]) (.list [1 / 10, 0]) true (flat meEvents) = .exit := by decide +kernel

/-! ## C56, the other quantities against mass -/

theorem minI_mem {l : List Int} {m : Int} (h : minI l = .ok m) : m ∈ l := by
  cases l with
  | nil => cases h
  | cons x xs =>
      cases h
      induction xs generalizing x with
      | nil => simp
      | cons a xs ih =>
          simp only [List.foldl_cons]
          rcases List.mem_cons.mp (ih (min x a)) with h1 | h1
          · rw [h1]; rcases min_choice x a with h | h <;> rw [h] <;> simp
          · simp [h1]

theorem qA_spec {as : List Int} {q : List ℚ} (h : as.length = q.length) (hne : as ≠ []) :
    ∃ (rows : List (Int × ℚ)) (lo hi : Int), qA as q = .ok rows ∧ hi ∈ as ∧ lo ∈ as ∧ (∀ a ∈ as, lo ≤ a ∧ a ≤ hi) ∧
      rows.map Prod.fst = (List.range (hi - lo).toNat).map (fun i : Nat => lo + i) ∧
      (rows.map fun r => ((as.filter fun x => decide (x = r.1)).length : ℚ) * r.2).sum
        = (((as.zip q).filter fun x => decide (x.1 < hi)).map Prod.snd).sum := by
  obtain ⟨hi, h1, h2, h3⟩ := maxI_spec hne
  obtain ⟨lo, h4, h5⟩ := minI_spec hne
  obtain ⟨rows, r1, r2, r3, r4⟩ := massRows_spec h (hi - lo).toNat lo
  refine ⟨rows, lo, hi, ?_, h2, minI_mem h4, fun a ha => ⟨h5 a ha, h3 a ha⟩, ?_, ?_⟩
  · unfold qA
    rw [h4]; simp only [Res.bind]
    rw [h1]; exact r1
  · apply List.ext_getElem
    · simp [r2]
    · intro i a b
      have ha : i < rows.length := by simpa using a
      have := (r3 i rows[i] (List.getElem?_eq_getElem ha)).1
      simp [this]
  · rw [r4]
    congr 2
    apply List.filter_congr
    intro x hx
    have h6 := h5 x.1 (List.of_mem_zip (show (x.1, x.2) ∈ as.zip q from hx)).1
    have h7 := h5 hi h2
    rw [decide_eq_decide]
    omega

/-- **C56**, partial, kinetic energy: `TKEA()` lists the masses up to the one before the largest; weighted with the numbers of
fragments the rows give the sum over the fragments below the largest mass of the total kinetic energies of their events.
What is missing is the largest mass, as for `nubarA`. -/
theorem C56_tke_partial (ps : List (PyFrag × PyFrag)) (hne : ps ≠ []) :
    ∃ (rows : List (Int × ℚ)) (lo hi : Int), TKEA (flat ps) = .ok rows ∧ (∃ f ∈ flat ps, f.a = hi) ∧
      (∀ f ∈ flat ps, lo ≤ f.a ∧ f.a ≤ hi) ∧
      rows.map Prod.fst = (List.range (hi - lo).toNat).map (fun i : Nat => lo + i) ∧
      (rows.map fun r => (((flat ps).filter fun f => decide (f.a = r.1)).length : ℚ) * r.2).sum
        = (ps.map fun p => (if p.1.a < hi then tke p else 0) + (if p.2.a < hi then tke p else 0)).sum := by
  have hl2 : ∀ l : List ℚ, (twice l).length = 2 * l.length := by
    intro l; unfold twice; induction l with
    | nil => rfl
    | cons a l ih => simp only [List.flatMap_cons, List.length_append, ih, List.length_cons, List.length_nil]; omega
  have hlen : (masses (flat ps)).length = (twice (ps.map tke)).length := by
    unfold masses; rw [List.length_map, flat_length, hl2, List.length_map]
  have hfne : flat ps ≠ [] := by
    intro e
    have := flat_length ps
    rw [e] at this
    simp at this
    exact hne this
  obtain ⟨rows, lo, hi, h1, h2, m2, h3, h4, h5⟩ := qA_spec hlen (by unfold masses; simpa using hfne)
  refine ⟨rows, lo, hi, ?_, ?_, ?_, h4, ?_⟩
  · unfold TKEA
    rw [tkes_flat]
    exact h1
  · obtain ⟨f, hf, e⟩ := List.mem_map.mp h2
    exact ⟨f, hf, e⟩
  · intro f hf; exact h3 _ (List.mem_map_of_mem hf)
  · have hcount : ∀ r : Int × ℚ, ((flat ps).filter fun f => decide (f.a = r.1)).length
        = ((masses (flat ps)).filter fun x => decide (x = r.1)).length := by
      intro r; unfold masses; rw [List.filter_map, List.length_map]; rfl
    simp only [hcount]
    rw [h5]
    clear h1 h2 m2 h3 h4 h5 hlen hcount hfne hne hl2
    induction ps with
    | nil => rfl
    | cons p ps ih =>
        have e1 : masses (flat (p :: ps)) = p.1.a :: p.2.a :: masses (flat ps) := rfl
        have e2 : twice ((p :: ps).map tke) = tke p :: tke p :: twice (ps.map tke) := rfl
        rw [e1, e2]
        simp only [List.zip_cons_cons, List.filter_cons, List.map_cons, List.sum_cons, ← ih, decide_eq_true_eq]
        by_cases c1 : p.1.a < hi <;> by_cases c2 : p.2.a < hi <;> simp only [c1, c2, if_true, if_false, List.map_cons, List.sum_cons] <;> ring

/-- **C56**, partial, excitation energy and spin: the same of `UA()` and `spinA()`. -/
theorem C56_columns_partial (fs : List PyFrag) (hne : fs ≠ []) :
    ∃ (rows rows' : List (Int × ℚ)) (lo hi : Int), UA fs = .ok rows ∧ spinA fs = .ok rows' ∧ (∃ f ∈ fs, f.a = hi) ∧
      (∀ f ∈ fs, lo ≤ f.a ∧ f.a ≤ hi) ∧
      rows.map Prod.fst = (List.range (hi - lo).toNat).map (fun i : Nat => lo + i) ∧
      rows'.map Prod.fst = (List.range (hi - lo).toNat).map (fun i : Nat => lo + i) ∧
      (rows.map fun r => ((fs.filter fun f => decide (f.a = r.1)).length : ℚ) * r.2).sum
        = ((fs.filter fun f => decide (f.a < hi)).map (·.xe)).sum ∧
      (rows'.map fun r => ((fs.filter fun f => decide (f.a = r.1)).length : ℚ) * r.2).sum
        = ((fs.filter fun f => decide (f.a < hi)).map (·.j)).sum := by
  have hm : masses fs ≠ [] := by simpa [masses] using hne
  have hcount : ∀ r : Int × ℚ, (fs.filter fun f => decide (f.a = r.1)).length
      = ((masses fs).filter fun x => decide (x = r.1)).length := by
    intro r; unfold masses; rw [List.filter_map, List.length_map]; rfl
  have hz : ∀ (hi : Int) (c : PyFrag → ℚ), ((((masses fs).zip (fs.map c)).filter fun x => decide (x.1 < hi)).map Prod.snd)
      = (fs.filter fun f => decide (f.a < hi)).map c := by
    intro hi c
    unfold masses
    rw [List.zip_map', List.filter_map, List.map_map]
    rfl
  obtain ⟨rows, lo, hi, h1, h2, l2, h3, h4, h5⟩ := qA_spec (as := masses fs) (q := fs.map (·.xe)) (by simp [masses]) hm
  obtain ⟨rows', lo', hi', g1, g2, m2, g3, g4, g5⟩ := qA_spec (as := masses fs) (q := fs.map (·.j)) (by simp [masses]) hm
  have ehi : hi' = hi := le_antisymm (h3 hi' g2).2 (g3 hi h2).2
  subst ehi
  obtain ⟨f, hf, e⟩ := List.mem_map.mp h2
  simp only [hcount]
  have elo : lo' = lo := le_antisymm (g3 lo l2).1 (h3 lo' m2).1
  subst elo
  refine ⟨rows, rows', lo', hi', h1, g1, ⟨f, hf, e⟩, fun f hf => h3 _ (List.mem_map_of_mem hf), h4, g4, ?_, ?_⟩
  · rw [h5, hz]
  · rw [g5, hz]

example : TKEA (flat tkeEvents) = .ok (([(96, 180), (97, 0), (98, 357 / 2), (99, 0), (100, 177)] : List (Int × ℚ)) ++
      ((List.range 34).map fun k : Nat => (((101 + k : Nat) : Int), (0 : ℚ))) ++ [(135, 177), (136, 0), (137, 357 / 2), (138, 0)]) ∧
    (∃ r, UA (flat tkeEvents) = .ok r ∧ r.length = 43) := by
  refine ⟨by decide +kernel, _, rfl, by decide +kernel⟩

end CGMF.Props

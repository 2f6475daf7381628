import Verif.Spec.PreSpectra
import Verif.Props.ExcitonRun
import Verif.Props.PrefissionLaw
import Verif.Proofs.ChainOpen

/-!
# C122: pre-fission neutrons drawn from the spectra the code builds
-/

namespace CGMF.Props

open CGMF.HF CGMF.Exc CGMF.ExcSpec CGMF.Grid CGMF.Pre CGMF.Spec CGMF.Law MeasureTheory

section

variable {sigma rho : Nat → ℝ → ℝ} {old : Nat → ℝ} {el E : Nat → ℝ} {ms : List (Mesh ℝ)} {sep barrier sp1 : List ℝ} {w tiny : ℝ} {n N : Nat}

theorem evap_length {s r : ℝ → ℝ} {m0 m1 : Mesh ℝ} {q : ℝ} {k0 : Nat} {l : List ℝ}
    (h : evapInterface s r old N m0 m1 q k0 = .ok l) : l.length = N := by
  unfold evapInterface at h
  simp only [] at h
  obtain ⟨v, _, h2⟩ := Res.bind_eq_ok.mp h
  have := Res.ok.inj h2
  rw [← this]
  simp
  omega

theorem orZero_length {s r : ℝ → ℝ} {m0 m1 : Mesh ℝ} {q : ℝ} {k0 : Nat} :
    (orZero N (evapInterface s r old N m0 m1 q k0)).length = N := by
  cases h : evapInterface s r old N m0 m1 q k0 with
  | ok l => exact evap_length h
  | exit => simp [orZero]
  | ub => simp [orZero]

/-- The grid in the form used by the law of the energies. -/
theorem grid_bins {m : Mesh ℝ} {e x : ℝ} (hw : 0 < w) (h : setup w N e x = .ok m) :
    (List.range N).map m.exc = (List.range N).map (fun k : Nat => if ((k : ℝ) + 1 / 2) * w ≤ x then x - k * w else 0) := by
  obtain ⟨f, h1, h2, h3, h4, h5, h6⟩ := setup_ok h
  apply List.map_congr_left
  intro k _
  rw [h5]
  by_cases hk : k < f
  · rw [excOf_eq w x (by omega), if_pos (by have := h3 k hk; linarith)]
  · rw [excOf_last w x (by omega), if_neg]
    have : (f : ℝ) ≤ k := by exact_mod_cast (by omega : f ≤ k)
    nlinarith

theorem built_chained (h : Grids el E ms sep w n N) (h1 : sp1.length = N) : CGMF.Spec.Chained (sysOf sigma rho old N w tiny ms sep barrier sp1) n N E where
  wpos := h.width
  bins := by
    intro i hi
    obtain ⟨m, hm, hs⟩ := h.grid i hi
    show (ms.map fun m => (List.range N).map m.exc)[i]? = _
    rw [List.getElem?_map, hm]
    simp only [Option.map_some, Option.some.injEq]
    exact grid_bins h.width hs
  sep := h.loses
  cover := by
    obtain ⟨m, hm, hs⟩ := h.grid 0 (Nat.zero_le _)
    obtain ⟨f, g1, g2, _⟩ := setup_ok hs
    have := h.width
    have : (f : ℝ) + 1 ≤ N := by exact_mod_cast g1
    show E 0 ≤ (N : ℝ) * w
    nlinarith
  first := h1
  later := by
    intro i k
    dsimp only [sysOf]
    split
    · exact orZero_length
    · simp

/-- One evaporation spectrum: zero in the bin of the parent, positive in the next one. -/
theorem evap_spec {s r : ℝ → ℝ} (hσ : ∀ e, 0 < e → 0 < s e) (hρ : ∀ x, 0 ≤ r x) (hρ' : ∀ x, 0 < x → 0 < r x) {m0 m1 : Mesh ℝ} {q : ℝ} {k0 : Nat}
    (hk : k0 + 1 < m1.ntotal) (hN : m1.ntotal ≤ N) (h0 : m0.exc k0 - m1.exc k0 - q = 0) (h1 : 0 < m0.exc k0 - m1.exc (k0 + 1) - q)
    (hx : 0 < m1.exc (k0 + 1)) :
    ∃ l, evapInterface s r old N m0 m1 q k0 = .ok l ∧ l.length = N ∧ (∀ x ∈ l, 0 ≤ x) ∧ l.getD k0 0 = 0 ∧ 0 < l.getD (k0 + 1) 0 ∧
      l.sum = 1 := by
  have hnn : ∀ k, 0 ≤ evapValue (channel s old (m0.exc k0) q m1.exc k).1 (channel s old (m0.exc k0) q m1.exc k).2 (r (m1.exc k)) := by
    intro k
    unfold evapValue channel
    simp only []
    split
    · rename_i h
      rw [if_neg (by linarith)]
      have := hσ _ h
      have := hρ (m1.exc k)
      positivity
    · exact le_rfl
  have hv1 : 0 < evapValue (channel s old (m0.exc k0) q m1.exc (k0 + 1)).1 (channel s old (m0.exc k0) q m1.exc (k0 + 1)).2 (r (m1.exc (k0 + 1))) := by
    unfold evapValue channel
    simp only []
    rw [if_pos h1, if_neg (by linarith)]
    have := hσ _ h1
    have := hρ' _ hx
    positivity
  have hv0 : evapValue (channel s old (m0.exc k0) q m1.exc k0).1 (channel s old (m0.exc k0) q m1.exc k0).2 (r (m1.exc k0)) = 0 := by
    unfold evapValue channel
    simp only []
    rw [if_neg (by linarith)]
  set g : Nat → ℝ := fun k => evapValue (channel s old (m0.exc k0) q m1.exc k).1 (channel s old (m0.exc k0) q m1.exc k).2 (r (m1.exc k)) with hg
  have hmap : ((List.range' k0 (m1.ntotal - k0)).map fun k : Nat => ((channel s old (m0.exc k0) q m1.exc k).1,
      (channel s old (m0.exc k0) q m1.exc k).2, r (m1.exc k))).map (fun b => evapValue b.1 b.2.1 b.2.2)
      = (List.range' k0 (m1.ntotal - k0)).map g := by
    rw [List.map_map]; rfl
  have hsum : 0 < ((List.range' k0 (m1.ntotal - k0)).map g).sum := by
    refine lt_of_lt_of_le hv1 (List.single_le_sum ?_ _ ?_)
    · intro y hy
      obtain ⟨k, _, rfl⟩ := List.mem_map.1 hy
      exact hnn k
    · exact List.mem_map.2 ⟨k0 + 1, by rw [List.mem_range'_1]; omega, rfl⟩
  have hev : evapSpectrum ((List.range' k0 (m1.ntotal - k0)).map fun k : Nat => ((channel s old (m0.exc k0) q m1.exc k).1,
      (channel s old (m0.exc k0) q m1.exc k).2, r (m1.exc k))) = .ok (((List.range' k0 (m1.ntotal - k0)).map g).map (· / ((List.range' k0 (m1.ntotal - k0)).map g).sum)) := by
    unfold evapSpectrum
    simp only []
    rw [hmap, if_neg hsum.ne']
  set S := ((List.range' k0 (m1.ntotal - k0)).map g).sum with hS
  have hval : evapInterface s r old N m0 m1 q k0 = .ok ((List.replicate k0 0 ++ ((List.range' k0 (m1.ntotal - k0)).map g).map (· / S)) ++ List.replicate (N - m1.ntotal) 0) := by
    unfold evapInterface
    simp only []
    rw [hev]
    show Res.ok _ = Res.ok _
    congr 1
    rw [List.take_append, List.take_of_length_le (by simp; omega)]
    simp
    omega
  have hat : ∀ j, k0 + j < m1.ntotal → ((List.replicate k0 0 ++ ((List.range' k0 (m1.ntotal - k0)).map g).map (· / S)) ++ List.replicate (N - m1.ntotal) 0).getD (k0 + j) 0 = g (k0 + j) / S := by
    intro j hj
    rw [List.getD_eq_getElem?_getD, List.getElem?_append_left (by simp; omega), List.getElem?_append_right (by simp),
      List.length_replicate, List.getElem?_map, List.getElem?_map, show k0 + j - k0 = j by omega, List.getElem?_range' (by omega)]
    simp
  refine ⟨_, hval, evap_length hval, ?_, ?_, ?_, ?_⟩
  · intro x hx
    rcases List.mem_append.1 hx with h | h
    · rcases List.mem_append.1 h with h | h
      · rw [(List.mem_replicate.1 h).2]
      · obtain ⟨y, hy, rfl⟩ := List.mem_map.1 h
        obtain ⟨k, _, rfl⟩ := List.mem_map.1 hy
        exact div_nonneg (hnn k) hsum.le
    · rw [(List.mem_replicate.1 h).2]
  · have := hat 0 (by omega)
    rw [Nat.add_zero] at this
    rw [this, show g k0 = 0 from hv0, zero_div]
  · rw [hat 1 hk]
    exact div_pos hv1 hsum
  · rw [List.sum_append, List.sum_append, sum_div, List.map_id', ← hS, div_self hsum.ne']
    simp

/-- What a spectrum from nucleus `i` at bin `k` to nucleus `i+1` looks like when the daughter has two more bins. -/
theorem evap_step (h : Grids el E ms sep w n N) (he : Emits sigma rho) {i : Nat} (hi : i < n) {k : Nat} (hk : ((k : ℝ) + 3 / 2) * w ≤ E (i + 1)) :
    ∃ m0 m1 q l, ms[i]? = some m0 ∧ ms[i + 1]? = some m1 ∧ sep[i]? = some q ∧
      evapInterface (sigma (i + 1)) (rho (i + 1)) old N m0 m1 q k = .ok l ∧ l.length = N ∧ (∀ x ∈ l, 0 ≤ x) ∧ l.getD k 0 = 0 ∧
      0 < l.getD (k + 1) 0 ∧ l.sum = 1 := by
  obtain ⟨m0, e0, s0⟩ := h.grid i (by omega)
  obtain ⟨m1, e1, s1⟩ := h.grid (i + 1) (by omega)
  obtain ⟨q, hq, q0, hE⟩ := h.loses i hi
  have hw := h.width
  obtain ⟨f0, a1, a2, a3, a4, a5, a6⟩ := setup_ok s0
  obtain ⟨f1, b1, b2, b3, b4, b5, b6⟩ := setup_ok s1
  have hk1 : k + 1 < f1 := by
    by_contra hc
    have : (f1 : ℝ) ≤ k + 1 := by exact_mod_cast (by omega : f1 ≤ k + 1)
    nlinarith
  have hk0 : k < f0 := by
    by_contra hc
    have : (f0 : ℝ) ≤ k := by exact_mod_cast (by omega : f0 ≤ k)
    nlinarith
  have x0 : m0.exc k = E i - k * w := by rw [a5, excOf_eq w _ (by omega)]
  have x1 : m1.exc k = E (i + 1) - k * w := by rw [b5, excOf_eq w _ (by omega)]
  have x2 : m1.exc (k + 1) = E (i + 1) - (k + 1) * w := by rw [b5, excOf_eq w _ (by omega)]; push_cast; ring
  obtain ⟨l, g1, g2, g3, g4, g5, g6⟩ := evap_spec (s := sigma (i + 1)) (r := rho (i + 1)) (old := old) (N := N) (m0 := m0) (m1 := m1) (q := q) (k0 := k)
    (he.cross _) (he.density _) (he.densityPos _) (by omega) (by omega) (by rw [x0, x1, hE]; ring) (by rw [x0, x2, hE]; nlinarith)
    (by rw [x2]; nlinarith)
  exact ⟨m0, m1, q, l, e0, e1, hq, g1, g2, g3, g4, g5, g6⟩

theorem grids_mono (h : Grids el E ms sep w n N) : ∀ d i, i + d ≤ n → E (i + d) ≤ E i := by
  intro d
  induction d with
  | zero => intro i _; exact le_rfl
  | succ d ih =>
    intro i hi
    obtain ⟨q, _, q0, hE⟩ := h.loses (i + d) (by omega)
    have := ih i (by omega)
    rw [show i + (d + 1) = i + d + 1 by omega, hE]
    linarith

/-- The spectra of the second and later neutrons are as the law of the energies needs them. -/
theorem built_later (h : Grids el E ms sep w n N) (he : Emits sigma rho) {b : ℝ} (hb : w ≤ b) (i : Nat) (hi : 2 ≤ i) (hin : i ≤ n) (k : Nat)
    (hk : w ≤ E n - k * w - b) :
    (∀ x ∈ (sysOf sigma rho old N w tiny ms sep barrier sp1).sp i k, 0 ≤ x) ∧
      ((sysOf sigma rho old N w tiny ms sep barrier sp1).sp i k).getD k 0 = 0 ∧
      0 < ((sysOf sigma rho old N w tiny ms sep barrier sp1).sp i k).getD (k + 1) 0 := by
  have hw := h.width
  have hm := grids_mono h (n - i) i (by omega)
  rw [show i + (n - i) = n by omega] at hm
  obtain ⟨m0, m1, q, l, e0, e1, eq, g1, g2, g3, g4, g5, g6⟩ := evap_step (old := old) h he (i := i - 1) (by omega) (k := k)
    (by rw [show i - 1 + 1 = i by omega]; nlinarith)
  rw [show i - 1 + 1 = i by omega] at e1 g1
  have hsp : (sysOf sigma rho old N w tiny ms sep barrier sp1).sp i k = l := by
    dsimp only [sysOf]
    rw [e0, e1, eq]
    show orZero N (evapInterface (sigma i) (rho i) old N m0 m1 q (k : Int).toNat) = l
    rw [show ((k : Int)).toNat = k from rfl, g1]
    rfl
  rw [hsp]
  exact ⟨g3, g4, g5⟩

theorem getD_nonneg {l : List ℝ} (h : ∀ x ∈ l, 0 ≤ x) (k : Nat) : 0 ≤ l.getD k 0 := by
  rw [List.getD_eq_getElem?_getD]
  cases hk : l[k]? with
  | none => simp
  | some v => simpa using h v (List.mem_of_getElem? hk)

/-- The spectra the code builds satisfy the hypotheses of the law of the energies, whatever the first spectrum, provided it is not
negative and not zero over its open bins. -/
theorem built_ok (h : Grids el E ms sep w n N) (he : Emits sigma rho) {b : ℝ} (hb : w ≤ b) (h1 : ∀ x ∈ sp1, 0 ≤ x) {k : Nat}
    (hk : k < openFirst w (E n) b) (hkp : 0 < sp1.getD k 0) : SpectraOK (sysOf sigma rho old N w tiny ms sep barrier sp1) n (E n) b where
  first := fun j _ => getD_nonneg h1 j
  firstPos := by
    refine lt_of_lt_of_le hkp ?_
    exact Finset.single_le_sum (f := fun j => sp1.getD j 0) (fun j _ => getD_nonneg h1 j) (Finset.mem_range.2 hk)
  later := by
    intro i hi hin k hk
    obtain ⟨g1, g2, g3⟩ := built_later (old := old) (tiny := tiny) (barrier := barrier) (sp1 := sp1) h he hb i hi hin k hk
    refine ⟨fun j _ => getD_nonneg g1 _, lt_of_lt_of_le g3 ?_⟩
    refine Finset.single_le_sum (f := fun j => ((sysOf sigma rho old N w tiny ms sep barrier sp1).sp i k).getD (k + j) 0) (fun j _ => getD_nonneg g1 _)
      (Finset.mem_range.2 ?_)
    unfold openLater
    have hw : 0 < (sysOf sigma rho old N w tiny ms sep barrier sp1).w := h.width
    have : (1 : Int) ≤ ⌊(E n - k * (sysOf sigma rho old N w tiny ms sep barrier sp1).w - b) / (sysOf sigma rho old N w tiny ms sep barrier sp1).w⌋ := by
      rw [Int.le_floor, le_div_iff₀ hw]
      push_cast
      show 1 * w ≤ E n - k * w - b
      rw [one_mul]
      exact hk
    omega

/-- The first bin with a positive energy is open when the last nucleus starts more than one bin above its barrier. -/
theorem open_one (hw : 0 < w) {En b : ℝ} (h : b + w < En) : 1 < openFirst w En b := by
  unfold openFirst
  have : (1 : Int) < ⌈(En - b) / w⌉ := by
    rw [Int.lt_ceil, lt_div_iff₀ hw]
    push_cast
    linarith
  omega

/-- **C122.** The law of the energies holds for the spectra the code builds: the joint law of all pre-fission neutrons is the one of
`C115_joint`, with no hypothesis left on the spectra of the second and later neutrons. -/
theorem C122_joint (h : Grids el E ms sep w n N) (he : Emits sigma rho) {b : ℝ} (hb : w ≤ b) (hbar : barrier[n]? = some b)
    (hE : b ≤ E n) (hlen1 : sp1.length = N) (h1 : ∀ x ∈ sp1, 0 ≤ x) {k : Nat} (hk : k < openFirst w (E n) b) (hkp : 0 < sp1.getD k 0)
    {nemit : Int} (hne : nemit ≠ 0) (E0 : ℝ) (X A : Set ℝ) (As : List (Set ℝ)) (hlen : As.length + 1 = n)
    (hm : ∀ B ∈ A :: As, MeasurableSet B) :
    probIn (energies (sysOf sigma rho old N w tiny ms sep barrier sp1) nemit n E0) (InAll (A :: As) X) =
      allChance (sysOf sigma rho old N w tiny ms sep barrier sp1) (E n) b X A As :=
  C115_joint (built_chained h hlen1) hb hbar hne hE (built_ok h he hb h1 hk hkp) E0 X A As hlen hm

/-- **C122.** Evaporation: on the grids of the chain, with any optical model whose cross sections are positive at positive energies and
any positive level density, if the last nucleus starts more than one bin above its barrier, then with probability one an energy is
returned for each pre-fission neutron and all energies are positive. -/
theorem C122_evaporation (h : Grids el E ms sep w n N) (he : Emits sigma rho) (hn : 0 < n) {b : ℝ} (hb : w ≤ b) (hbar : barrier[n]? = some b)
    (hE : b + w < E n) (htiny : 0 < tiny) {nemit : Int} (hne : nemit ≠ 0) (E0 : ℝ) :
    ∃ m0 m1 q l, ms[0]? = some m0 ∧ ms[1]? = some m1 ∧ sep[0]? = some q ∧
      evapInterface (sigma 1) (rho 1) old N m0 m1 q 0 = .ok l ∧ l.sum = 1 ∧
      probIn (energies (sysOf sigma rho old N w tiny ms sep barrier l) nemit n E0)
        {z | ∃ es, z.1 = some es ∧ es.length = n ∧ ∀ e ∈ es, 0 < e} = 1 := by
  have hw := h.width
  have hm := grids_mono h (n - 1) 1 (by omega)
  rw [show 1 + (n - 1) = n by omega] at hm
  obtain ⟨m0, m1, q, l, e0, e1, eq, g1, g2, g3, g4, g5, g6⟩ := evap_step (old := old) h he (i := 0) (by omega) (k := 0)
    (by show ((0 : Nat) + 3 / 2 : ℝ) * w ≤ E 1; push_cast; nlinarith)
  refine ⟨m0, m1, q, l, e0, e1, eq, g1, g6, ?_⟩
  refine C115_positive (built_chained h g2) (b := b) hb hbar hne hn (by linarith)
    (built_ok h he hb g3 (open_one hw hE) g5) htiny g4 ?_ E0
  intro i hi hin k hk
  exact (built_later h he hb i hi hin k hk).2.1

/-- **C122.** Pre-equilibrium: the same with the first neutron drawn from the spectrum of the exciton model, if this spectrum has its
first bin open (its residual energy above the pairing energy of the target). -/
theorem C122_preequilibrium (h : Grids el E ms sep w n N) (he : Emits sigma rho) (hn : 0 < n) {b : ℝ} (hb : w ≤ b) (hbar : barrier[n]? = some b)
    (hE : b + w < E n) (htiny : 0 < tiny) {nemit : Int} (hne : nemit ≠ 0) (E0 : ℝ)
    {C : Consts ℝ} {me : Int → Int → Res ℝ} {s : ℝ → ℝ} {z a : Int} {einc sn cms : ℝ} (hr : Reaction C me w N z a einc sn cms)
    (hs : ∀ e, 0 ≤ e → 0 ≤ s e) (hs1 : 0 < s w) {el0 el1 : ℝ} (h0 : 0 ≤ el0) (h1 : 0 ≤ el1) (emax1 : ℝ)
    (hex : pairingDelta Real.sqrt z (a + 1) + 384 / 10 / ((a + 1 - z : Int) : ℝ) < sn + cms) (hc : w + w / 2 ≤ cms)
    (hu : pairingDelta Real.sqrt z a < cms - w) :
    ∃ l, excitonInterface realFns Real.sqrt C me s w N el0 el1 emax1 z a einc = .ok l ∧ l.sum = 1 ∧
      probIn (energies (sysOf sigma rho old N w tiny ms sep barrier l) nemit n E0)
        {z | ∃ es, z.1 = some es ∧ es.length = n ∧ ∀ e ∈ es, 0 < e} = 1 := by
  obtain ⟨l, g1, g2, g3, -, g5⟩ := C121_spectrum hr hs h0 h1 emax1
  obtain ⟨l', v, p1, p2, p3, p4⟩ := C121_populated hr hs h0 h1 emax1 hex 1 le_rfl (by push_cast; linarith) (by push_cast; linarith)
    (by push_cast; rw [one_mul]; exact hs1)
  obtain rfl : l' = l := Res.ok.inj (p1.symm.trans g1)
  have hz0 : l'.getD 0 0 = 0 := by
    rw [List.getD_eq_getElem?_getD]
    cases hk : l'[0]? with
    | none => rfl
    | some x =>
      have hx := g3 x (List.mem_of_getElem? hk)
      by_contra hne0
      have := (g5 0 x hk (lt_of_le_of_ne hx (fun h => hne0 (by simp [← h])))).1
      omega
  have hz1 : 0 < l'.getD 1 0 := by rw [List.getD_eq_getElem?_getD, p2]; exact p3
  refine ⟨l', p1, p4, ?_⟩
  refine C115_positive (built_chained h g2) (b := b) hb hbar hne hn (by have := h.width; linarith)
    (built_ok h he hb g3 (open_one h.width hE) hz1) htiny hz0 ?_ E0
  intro i hi hin k hk
  exact (built_later h he hb i hi hin k hk).2.1

end

namespace BuiltDemo

/-- Three nuclei starting at 20.9, 13.9 and 8.4 MeV. -/
noncomputable def energy : Nat → ℝ := fun i => if i = 0 then 209 / 10 else if i = 1 then 139 / 10 else 84 / 10

theorem grid_of (i : Nat) : ∃ m, setup (1 / 20) 2500 0 (energy i) = .ok m := by
  apply setup_exists
  refine ⟨2000, by norm_num, ?_⟩
  unfold energy
  split_ifs <;> norm_num

noncomputable def mesh (i : Nat) : Mesh ℝ := (grid_of i).choose

theorem grids : Grids (fun _ => 0) energy [mesh 0, mesh 1, mesh 2] [7, 55 / 10] (1 / 20) 2 2500 where
  width := by norm_num
  grid := by
    intro i hi
    refine ⟨mesh i, ?_, (grid_of i).choose_spec⟩
    interval_cases i <;> rfl
  loses := by
    intro i hi
    interval_cases i
    · exact ⟨7, rfl, by norm_num, by norm_num [energy]⟩
    · exact ⟨55 / 10, rfl, by norm_num, by norm_num [energy]⟩

theorem emits : Emits (fun _ e => 1 + e ^ 2) (fun _ x => x ^ 2) where
  cross := by intro _ e _; positivity
  density := by intro _ x; positivity
  densityPos := by intro _ x hx; positivity

/-- Hypotheses of `C122_evaporation` met: third-chance fission over a barrier of 6 MeV. -/
example : ∃ m0 m1 q l, [mesh 0, mesh 1, mesh 2][0]? = some m0 ∧ [mesh 0, mesh 1, mesh 2][1]? = some m1 ∧ [(7 : ℝ), 55 / 10][0]? = some q ∧
    evapInterface (fun e => 1 + e ^ 2) (fun x => x ^ 2) (fun _ => 0) 2500 m0 m1 q 0 = .ok l ∧ l.sum = 1 ∧
    probIn (energies (sysOf (fun _ e => 1 + e ^ 2) (fun _ x => x ^ 2) (fun _ => 0) 2500 (1 / 20) (1 / 100000) [mesh 0, mesh 1, mesh 2] [7, 55 / 10]
      [6, 6, 6] l) 3 2 14) {z | ∃ es, z.1 = some es ∧ es.length = 2 ∧ ∀ e ∈ es, 0 < e} = 1 :=
  C122_evaporation (old := fun _ => 0) grids emits (by norm_num) (b := 6) (by norm_num) rfl (by norm_num [energy]) (by norm_num) (by norm_num) 14

/-- Hypotheses of `C122_preequilibrium` met: the same with the spectrum of the exciton model for the first neutron. -/
example : ∃ l, excitonInterface realFns Real.sqrt RunDemo.consts RunDemo.masses (fun _ => 1) (1 / 20) 2500 0 0 0 92 235 14 = .ok l ∧ l.sum = 1 ∧
    probIn (energies (sysOf (fun _ e => 1 + e ^ 2) (fun _ x => x ^ 2) (fun _ => 0) 2500 (1 / 20) (1 / 100000) [mesh 0, mesh 1, mesh 2] [7, 55 / 10]
      [6, 6, 6] l) 3 2 14) {z | ∃ es, z.1 = some es ∧ es.length = 2 ∧ ∀ e ∈ es, 0 < e} = 1 := by
  refine C122_preequilibrium (old := fun _ => 0) grids emits (by norm_num) (b := 6) (by norm_num) rfl (by norm_num [energy]) (by norm_num)
    (by norm_num) 14 RunDemo.reaction (fun _ _ => zero_le_one) one_pos le_rfl le_rfl 0 ?_ (by norm_num) ?_
  · have := RunDemo.delta_le 92 (235 + 1) (by norm_num)
    norm_num
    norm_num at this
    linarith
  · have := RunDemo.delta_le 92 235 (by norm_num)
    norm_num
    linarith

end BuiltDemo

end CGMF.Props

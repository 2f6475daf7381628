import Verif.Spec.ExcitonRun
import Verif.Proofs.ExcitonRun
import Verif.Props.Exciton
import Verif.Props.Grid

/-!
# C121: the pre-equilibrium spectrum, from target and energy
-/

namespace CGMF.Props

open CGMF.Exc CGMF.ExcSpec CGMF.Grid

section

variable {C : Consts ℝ} {z a : Int} {einc : ℝ}

theorem run_pc (hz : 1 ≤ z) (hn : z < a) :
    ∀ (n : Int) (x : ℝ), 1 ≤ n → n ≤ 31 → 0 < x → 0 ≤ pairingCorr realFns (critical Real.sqrt (spdOf realFns Real.sqrt einc z a)) n x
      (spdOf realFns Real.sqrt einc z a) := fun n x h1 h2 hx => (pairing_range einc hz hn n x h1 h2 hx).1

theorem density_spec (p : SPdens ℝ) (x : ℝ) (e : Exconf) (he : InTable e) :
    stateDensity realFns (fun n u => pairingCorr realFns (critical Real.sqrt p) n u p) p x e = .ok (density realFns Real.sqrt p x e) := by
  obtain ⟨v, hv⟩ := stateDensity_ok realFns (fun n u => pairingCorr realFns (critical Real.sqrt p) n u p) p x e he
  unfold density
  rw [hv]; rfl

theorem excDensity_nonneg (hz : 1 ≤ z) (hn : z < a) (x : ℝ) (hx : x ≤ 38) (e : Exconf) (he : InTable e) :
    0 ≤ density realFns Real.sqrt (spdOf realFns Real.sqrt einc z a) x e :=
  stateDensity_nonneg libM_real _ (run_pc hz hn) _ (gz_pos _ _ _ hz).le (gn_pos _ _ _ hn).le x hx e he _ (density_spec _ x e he)

theorem density_zero (p : SPdens ℝ) (x : ℝ) (hx : x ≤ 0) (e : Exconf) (he : InTable e) : density realFns Real.sqrt p x e = 0 :=
  stateDensity_zero _ _ x hx e _ (density_spec _ x e he)

theorem density_pos (he0 : 0 < einc) (hz : 1 ≤ z) (hn : z < a) (x : ℝ) (e : Exconf) (he : InTable e)
    (h1 : 0 ≤ e.zp) (h2 : 0 ≤ e.zh) (h3 : 0 ≤ e.np) (h4 : 0 ≤ e.nh) (hne : e.zp + e.np + (e.zh + e.nh) ≠ 0)
    (hf : Few (e.zp + e.np + (e.zh + e.nh)) (e.zh + e.nh).toNat)
    (hp : pauli (spdOf realFns Real.sqrt einc z a).gz (spdOf realFns Real.sqrt einc z a).gn e + pairingDelta Real.sqrt z a < x) :
    0 < density realFns Real.sqrt (spdOf realFns Real.sqrt einc z a) x e := by
  have hg := gz_pos realFns Real.sqrt einc (a := a) hz
  have hg' := gn_pos realFns Real.sqrt einc hn
  have hpn := pauli_nonneg hg hg' e
  have hd : 0 ≤ pairingDelta Real.sqrt z a := pairing_nonneg realFns einc
  have hw := well_range (z := z) einc he0 (by omega : 1 ≤ a)
  obtain ⟨a1, a2, a3, a4⟩ := he
  obtain ⟨v, hv, hpos⟩ := stateDensity_pos
    (fun n u => pairingCorr realFns (critical Real.sqrt (spdOf realFns Real.sqrt einc z a)) n u (spdOf realFns Real.sqrt einc z a))
    (spdOf realFns Real.sqrt einc z a) x e ⟨a1, a2, a3, a4⟩ h1 h2 h3 h4 hne hf hg hg' hw.1 hw.2 (by linarith)
    (by
      have := (pairing_range einc hz hn (e.zp + e.np + (e.zh + e.nh)) x (by omega) (by omega) (by linarith)).2
      show _ < x - pairingCorr _ _ _ _ _
      linarith)
  unfold density
  rw [hv]
  exact hpos

theorem pass_composite (hz : 1 ≤ z) (hn : z < a) (hp : 0 ≤ C.pi2) {ex : ℝ} (hx : 0 ≤ ex) {i j : Nat} (hi : i < 6) (hj : j < 6) :
    Composite realFns (fun n u => pairingCorr realFns (critical Real.sqrt (spdOf realFns Real.sqrt einc z a)) n u
      (spdOf realFns Real.sqrt einc z a)) (spdOf realFns Real.sqrt einc z a) ex
      (pass realFns Real.sqrt C (spdOf realFns Real.sqrt einc z a) a ex i j) i j := by
  have ha : (0 : ℝ) < a := by exact_mod_cast (by omega : 0 < a)
  have hnn : (0 : ℝ) < ((2 * i + (2 * j + 1) : Nat) : ℝ) := by exact_mod_cast (by omega)
  have hm := C78_matrix (a : ℝ) _ ex ha hnn hx
  have h1 := mul_nonneg hp hm.1.le
  have h2 : 0 ≤ C.pi2 * (mSquare (a : ℝ) ((2 * i + (2 * j + 1) : Nat) : ℝ) ex).2 := by
    rw [hm.2]; have := hm.1; positivity
  exact ⟨rfl, fun x e he => density_spec _ x e he, fun e => rfl, density_spec _ ex _ (small_confAt hi hj), h1, h1, h2, h2⟩

theorem run_first_nonneg (hz : 1 ≤ z) (hn : z < a) (hp : 0 ≤ C.pi2) {ex : ℝ} (hx : 0 ≤ ex) (hE : ex ≤ 38) :
    0 ≤ firstZ realFns C (spdOf realFns Real.sqrt einc z a) a ex ∧ 0 ≤ firstN realFns C (spdOf realFns Real.sqrt einc z a) a ex := by
  have ha : (0 : ℝ) < a := by exact_mod_cast (by omega : 0 < a)
  have hm := C78_matrix (a : ℝ) 1 ex ha one_pos hx
  have hg := gz_pos realFns Real.sqrt einc (a := a) hz
  have hg' := gn_pos realFns Real.sqrt einc hn
  have h2 : 0 ≤ (mSquare (a : ℝ) 1 ex).2 := by rw [hm.2]; have := hm.1; positivity
  obtain ⟨x, hx'⟩ := finiteWell_ok realFns 3 1 ex (spdOf realFns Real.sqrt einc z a).wellDepth (by omega)
  have hw := finiteWell_nonneg libM_real 3 (by omega) 1 ex _ hE x hx'
  unfold firstZ firstN
  simp only []
  rw [val_ok hx']
  exact ⟨lambdaPlusOne_nonneg _ _ _ _ _ _ _ _ _ _ hp le_rfl zero_le_one hg.le hg'.le hm.1.le h2 hw,
    lambdaPlusOne_nonneg _ _ _ _ _ _ _ _ _ _ hp zero_le_one le_rfl hg'.le hg.le hm.1.le h2 hw⟩

theorem res_table {i j : Nat} (hi : i < 6) (hj : j < 6) : InTable ((confAt i j).add 0 0 (-1) 0) := by
  unfold InTable confAt Exconf.add; refine ⟨?_, ?_, ?_, ?_⟩ <;> simp only [] <;> omega

theorem emitted_nonneg (hz : 1 ≤ z) (hn : z < a) (hr : 0 ≤ C.rate) {rm ot : ℝ} (hrm : 0 ≤ rm) (hot : 0 ≤ ot)
    {tc : Nat → ℝ × ℝ} {exc : Nat → ℝ} (k : Nat) (h1 : 0 ≤ (tc k).1) (h2 : 0 ≤ (tc k).2) (h3 : exc k ≤ 38)
    {i j : Nat} (hi : i < 6) (hj : j < 6) :
    0 ≤ emitted realFns Real.sqrt C (spdOf realFns Real.sqrt einc z a) rm ot tc exc (confAt i j) k := by
  unfold emitted
  simp only []
  split
  · exact le_rfl
  · exact C79_emission _ _ _ _ (by positivity) h1 h2 (excDensity_nonneg hz hn _ h3 _ (res_table hi hj))

/-- What the composed calculation needs of the channel data. -/
structure Data' (tc : Nat → ℝ × ℝ) (exc : Nat → ℝ) : Prop where
  energy : ∀ k, 0 ≤ (tc k).1
  sigma : ∀ k, 0 ≤ (tc k).2
  exc : ∀ k, exc k ≤ 38

theorem model_facts (hz : 1 ≤ z) (hn : z < a) (hp : 0 ≤ C.pi2) (hr : 0 ≤ C.rate) {ex rm w : ℝ} (hx : 0 ≤ ex) (hE : ex ≤ 38)
    (hrm : 0 ≤ rm) (hw : 0 ≤ w) {tc : Nat → ℝ × ℝ} {exc : Nat → ℝ} (hd : Data' tc exc) (nt : Nat) :
    let q := pass realFns Real.sqrt C (spdOf realFns Real.sqrt einc z (a + 1)) (a + 1) ex
    let wk (i j : Nat) := emittedAll realFns Real.sqrt C (spdOf realFns Real.sqrt einc z a) rm (q i j).omegaTotal w tc exc nt (confAt i j)
    let r := ratesOf q (firstZ realFns C (spdOf realFns Real.sqrt einc z (a + 1)) (a + 1) ex)
      (firstN realFns C (spdOf realFns Real.sqrt einc z (a + 1)) (a + 1) ex) wk
    let wkc (i j k : Nat) : ℝ :=
      if (q i j).omegaTotal = 0 then 0 else emitted realFns Real.sqrt C (spdOf realFns Real.sqrt einc z a) rm (q i j).omegaTotal tc exc (confAt i j) k
    NonNeg r ∧ (∀ i j k, i < 6 → j < 6 → 0 ≤ wkc i j k) ∧ (∀ i j, i < 6 → j < 6 → 0 ≤ (q i j).omegaTotal) ∧
      (∀ i j, i < 6 → j < 6 → 0 ≤ wk i j) := by
  intro q wk r wkc
  have hn1 : z < a + 1 := by omega
  have hq : ∀ i j, i < 6 → j < 6 → Composite realFns _ (spdOf realFns Real.sqrt einc z (a + 1)) ex (q i j) i j :=
    fun i j hi hj => pass_composite hz hn1 hp hx hi hj
  have ho : ∀ i j, i < 6 → j < 6 → 0 ≤ (q i j).omegaTotal := fun i j hi hj =>
    omegaTotal_nonneg libM_real (run_pc hz hn1) (gz_pos _ _ _ hz) (gn_pos _ _ _ hn1) hE hi hj (hq i j hi hj)
  have hf := run_first_nonneg (C := C) (einc := einc) hz hn1 hp hx hE
  have he : ∀ i j k, i < 6 → j < 6 →
      0 ≤ emitted realFns Real.sqrt C (spdOf realFns Real.sqrt einc z a) rm (q i j).omegaTotal tc exc (confAt i j) k :=
    fun i j k hi hj => emitted_nonneg hz hn hr hrm (ho i j hi hj) k (hd.energy k) (hd.sigma k) (hd.exc k) hi hj
  refine ⟨ratesOf_nonneg libM_real (run_pc hz hn1) (gz_pos _ _ _ hz) (gn_pos _ _ _ hn1) hE hq hf.1 hf.2, ?_, ho, ?_⟩
  · intro i j k hi hj
    dsimp only [wkc]
    split
    · exact le_rfl
    · exact he i j k hi hj
  · intro i j hi hj
    refine List.sum_nonneg ?_
    intro y hy
    obtain ⟨k, _, rfl⟩ := List.mem_map.1 hy
    exact mul_nonneg (he i j k hi hj) hw

/-- A bin of a positive cross section whose residual energy exceeds the pairing energy is populated. -/
theorem model_pos (he0 : 0 < einc) (hz : 1 ≤ z) (hn : z < a) (hp : 0 < C.pi2) (hr : 0 < C.rate) {ex rm w : ℝ} (hx : 0 ≤ ex) (hE : ex ≤ 38)
    (hrm : 0 < rm) (hw : 0 < w) {tc : Nat → ℝ × ℝ} {exc : Nat → ℝ} (hd : Data' tc exc) (nt : Nat)
    (hex : pairingDelta Real.sqrt z (a + 1) + 384 / 10 / ((a + 1 - z : Int) : ℝ) < ex) (k : Nat) (hk : 1 ≤ k) (hk' : k < nt)
    (hs : 0 < (tc k).2) (he : 0 < (tc k).1) (hu : pairingDelta Real.sqrt z a < exc k) :
    ∃ v, (excitonModel realFns Real.sqrt C (spdOf realFns Real.sqrt einc z (a + 1)) (spdOf realFns Real.sqrt einc z a) (a + 1) ex
      rm w tc exc nt)[k]? = some v ∧ 0 < v := by
  have facts := model_facts (einc := einc) hz hn hp.le hr.le hx hE hrm.le hw.le hd nt
  unfold excitonModel
  simp only []
  rw [List.getElem?_map, List.getElem?_range hk']
  simp only [Option.map_some, Option.some.injEq, exists_eq_left']
  revert facts
  simp only []
  set q := pass realFns Real.sqrt C (spdOf realFns Real.sqrt einc z (a + 1)) (a + 1) ex with hqd
  set wk := fun i j : Nat => emittedAll realFns Real.sqrt C (spdOf realFns Real.sqrt einc z a) rm (q i j).omegaTotal w tc exc nt (confAt i j) with hwk
  set r := ratesOf q (firstZ realFns C (spdOf realFns Real.sqrt einc z (a + 1)) (a + 1) ex)
      (firstN realFns C (spdOf realFns Real.sqrt einc z (a + 1)) (a + 1) ex) wk with hrd
  rintro ⟨nn, f2, ho, f4⟩
  have hn1 : z < a + 1 := by omega
  have hg := gz_pos realFns Real.sqrt einc (a := a + 1) hz
  have hg' := gn_pos realFns Real.sqrt einc hn1
  have hN : (0 : ℝ) < ((a + 1 - z : Int) : ℝ) := by exact_mod_cast (by omega : 0 < a + 1 - z)
  have hd0 : 0 ≤ pairingDelta Real.sqrt z (a + 1) := pairing_nonneg (a := a + 1) (z := z) realFns einc
  have hfrac : 0 < 384 / 10 / ((a + 1 - z : Int) : ℝ) := by positivity
  have hgn : (spdOf realFns Real.sqrt einc z (a + 1)).gn = ((a + 1 - z : Int) : ℝ) / (192 / 10) := rfl
  have hpa : pauli (spdOf realFns Real.sqrt einc z (a + 1)).gz (spdOf realFns Real.sqrt einc z (a + 1)).gn ⟨0, 0, 2, 1⟩
      = 384 / 10 / ((a + 1 - z : Int) : ℝ) := by
    unfold pauli
    rw [if_neg (by decide), hgn]
    simp only []
    norm_num
    field_simp
    norm_num
  have hpa0 : pauli (spdOf realFns Real.sqrt einc z (a + 1)).gz (spdOf realFns Real.sqrt einc z (a + 1)).gn ⟨0, 0, 1, 0⟩
      = 96 / 10 / ((a + 1 - z : Int) : ℝ) := by
    unfold pauli
    rw [if_neg (by decide), hgn]
    simp only []
    norm_num
    field_simp
    norm_num
  -- state densities of the two configurations
  have o00 : 0 < (q 0 0).omegaTotal := by
    show 0 < density realFns Real.sqrt _ ex (confAt 0 0)
    refine density_pos he0 hz hn1 ex (confAt 0 0) (small_confAt (by omega) (by omega)) (by decide) (by decide) (by decide)
      (by decide) (by decide) (Or.inl rfl) ?_
    show pauli _ _ ⟨0, 0, 1, 0⟩ + _ < ex
    rw [hpa0]
    have : 96 / 10 / ((a + 1 - z : Int) : ℝ) ≤ 384 / 10 / ((a + 1 - z : Int) : ℝ) := by
      apply div_le_div_of_nonneg_right _ hN.le; norm_num
    linarith
  have o01 : 0 < (q 0 1).omegaTotal := by
    show 0 < density realFns Real.sqrt _ ex (confAt 0 1)
    refine density_pos he0 hz hn1 ex (confAt 0 1) (small_confAt (by omega) (by omega)) (by decide) (by decide) (by decide)
      (by decide) (by decide) (Or.inr ⟨rfl, by decide⟩) ?_
    show pauli _ _ ⟨0, 0, 2, 1⟩ + _ < ex
    rw [hpa]
    linarith
  -- creation of the first neutron pair
  have hN0 : 0 < firstN realFns C (spdOf realFns Real.sqrt einc z (a + 1)) (a + 1) ex := by
    unfold firstN
    simp only []
    obtain ⟨x, e1, e2⟩ := finiteWell_few (Or.inr ⟨rfl, by norm_num⟩ : Few 3 1) ex (spdOf realFns Real.sqrt einc z (a + 1)).wellDepth
      (by linarith) (well_range (z := z) einc he0 (by omega)).1 (well_range (z := z) einc he0 (by omega)).2
    rw [val_ok e1]
    have ha : (0 : ℝ) < ((a + 1 : Int) : ℝ) := by exact_mod_cast (by omega : 0 < a + 1)
    have hm := (C78_matrix ((a + 1 : Int) : ℝ) 1 ex ha one_pos hx).1
    unfold lambdaPlusOne
    simp only []
    have htop : pauli (spdOf realFns Real.sqrt einc z (a + 1)).gz (spdOf realFns Real.sqrt einc z (a + 1)).gn ((confAt 0 0).add 0 0 1 1)
        = 384 / 10 / ((a + 1 - z : Int) : ℝ) := hpa
    rw [htop, if_pos (by linarith)]
    have : 0 < ex - 384 / 10 / ((a + 1 - z : Int) : ℝ) := by linarith
    rw [mul_zero, zero_mul, zero_mul, add_zero, one_mul]
    positivity
  have tnp0 : r.tnp 0 0 = firstN realFns C (spdOf realFns Real.sqrt einc z (a + 1)) (a + 1) ex := by
    show (if (q 0 0).omegaTotal = 0 then 0 else plusN (q 0 0) _ (confAt 0 0)) = _
    rw [if_neg o00.ne']
    unfold plusN
    rw [if_pos (by decide)]
  -- lifetimes
  have t1eq : ∀ i j : Nat, (q i j).omegaTotal ≠ 0 → r.t1 i j =
      if 0 < r.tzp i j + r.tnp i j + r.tz0 i j + r.tn0 i j + wk i j then 1 / (r.tzp i j + r.tnp i j + r.tz0 i j + r.tn0 i j + wk i j) else 0 := by
    intro i j h
    rw [hrd]
    unfold ratesOf lifetimes
    simp only [if_neg h]
  have t00 : 0 < r.t1 0 0 := by
    rw [t1eq 0 0 o00.ne']
    have := nn.tzp 0 0 (by omega) (by omega)
    have := nn.tz0 0 0 (by omega) (by omega)
    have := nn.tn0 0 0 (by omega) (by omega)
    have := f4 0 0 (by omega) (by omega)
    have h : 0 < r.tzp 0 0 + r.tnp 0 0 + r.tz0 0 0 + r.tn0 0 0 + wk 0 0 := by rw [tnp0]; linarith
    rw [if_pos h]
    positivity
  have hem : 0 < emitted realFns Real.sqrt C (spdOf realFns Real.sqrt einc z a) rm (q 0 1).omegaTotal tc exc (confAt 0 1) k := by
    unfold emitted
    simp only []
    rw [if_neg (by rintro (h | h | h)
                   · omega
                   · exact absurd h (by decide)
                   · exact absurd h (by decide))]
    have : 0 < density realFns Real.sqrt (spdOf realFns Real.sqrt einc z a) (exc k) ((confAt 0 1).add 0 0 (-1) 0) := by
      refine density_pos he0 hz hn (exc k) _ (res_table (by omega) (by omega)) (by decide) (by decide) (by decide)
        (by decide) (by decide) (Or.inr ⟨rfl, by decide⟩) ?_
      have : pauli (spdOf realFns Real.sqrt einc z a).gz (spdOf realFns Real.sqrt einc z a).gn ((confAt 0 1).add 0 0 (-1) 0) = 0 := by
        show pauli _ _ ⟨0, 0, 1, 1⟩ = 0
        unfold pauli
        rw [if_neg (by decide)]
        norm_num
      rw [this, zero_add]
      exact hu
    unfold emission
    positivity
  have wk01 : 0 < wk 0 1 := by
    show 0 < ((List.range' 1 (nt - 1)).map fun k : Nat => _ * w).sum
    refine lt_of_lt_of_le (mul_pos hem hw) (List.single_le_sum ?_ _ ?_)
    · intro y hy
      obtain ⟨k', _, rfl⟩ := List.mem_map.1 hy
      exact mul_nonneg (emitted_nonneg hz hn hr.le hrm.le o01.le k' (hd.energy k') (hd.sigma k') (hd.exc k') (by omega) (by omega)) hw.le
    · exact List.mem_map.2 ⟨k, by rw [List.mem_range'_1]; omega, rfl⟩
  have t01 : 0 < r.t1 0 1 := by
    rw [t1eq 0 1 o01.ne']
    have := nn.tzp 0 1 (by omega) (by omega)
    have := nn.tnp 0 1 (by omega) (by omega)
    have := nn.tz0 0 1 (by omega) (by omega)
    have := nn.tn0 0 1 (by omega) (by omega)
    have h : 0 < r.tzp 0 1 + r.tnp 0 1 + r.tz0 0 1 + r.tn0 0 1 + wk 0 1 := by linarith
    rw [if_pos h]
    positivity
  -- occupation
  have occ : 0 < (occupation r).1 0 1 := by
    obtain ⟨P, hP⟩ := balanced_exists r
    have h := (C77_solution r nn P hP 0 1 (by omega) (by omega)).1
    have hP01 : 0 < P 0 1 := by
      rw [hP.2 0 1 (by omega) (by omega) (by decide)]
      unfold arrivals at6
      norm_num
      rw [hP.1]
      have := nn.tz0 1 0 (by omega) (by omega)
      have := nn.t1 1 0 (by omega) (by omega)
      have := nn.tzp 0 0 (by omega) (by omega)
      have := nn.t2 0 0 (by omega) (by omega)
      have h0 : 0 < r.tnp 0 0 := by rw [tnp0]; exact hN0
      positivity
    have : 0 < ((1 : ℝ) - 1 / 1000000) ^ (0 + 1) * P 0 1 := by positivity
    linarith
  -- the bin
  unfold excSpectrum
  rw [if_neg (by omega)]
  refine lt_of_lt_of_le (?_ : (0 : ℝ) < (if (q 0 1).omegaTotal = 0 then 0 else
    emitted realFns Real.sqrt C (spdOf realFns Real.sqrt einc z a) rm (q 0 1).omegaTotal tc exc (confAt 0 1) k)
      * (r.t1 0 1 * (occupation r).1 0 1)) (List.single_le_sum ?_ _ ?_)
  · rw [if_neg o01.ne']; positivity
  · intro y hy
    obtain ⟨c, hc, rfl⟩ := List.mem_map.1 hy
    obtain ⟨c1, c2⟩ := (mem_cells c).1 hc
    exact mul_nonneg (f2 _ _ _ c1 c2) (mul_nonneg (nn.t1 _ _ c1 c2) ((C77_nonneg r nn).2 _ _ c1 c2))
  · exact List.mem_map.2 ⟨(0, 1), (mem_cells _).2 ⟨by decide, by decide⟩, rfl⟩

end

section

variable {C : Consts ℝ} {me : Int → Int → Res ℝ} {sigma : ℝ → ℝ} {w : ℝ} {N : Nat} {z a : Int} {einc sn cms : ℝ}

/-- The grid of a nucleus that fits. -/
theorem run_grid (hw : 0 < w) {E el : ℝ} (hE : 0 < E) (hf : E < w * ((N : ℝ) - 1 / 2)) (hel : 0 ≤ el) :
    ∃ m, setup w N el E = .ok m ∧ 1 ≤ m.ntotal ∧ m.ntotal ≤ N ∧ (∀ k, k + 1 < m.ntotal → m.exc k = E - k * w ∧ w / 2 ≤ m.exc k) ∧
      (∀ k, m.ntotal ≤ k + 1 → m.exc k = 0) ∧ (w / 2 ≤ E → m.exc 0 = E) ∧ (∀ k : Nat, w / 2 ≤ E - k * w → k + 1 < m.ntotal) := by
  cases hs : setup w N el E with
  | ub => exact absurd hs setup_not_ub
  | exit =>
    rw [setup_exit_iff] at hs
    have hN : 0 < N := by
      rcases Nat.eq_zero_or_pos N with h | h
      · subst h; norm_num at hf; nlinarith
      · exact h
    have := hs (N - 1) (by omega)
    have e : ((N - 1 : Nat) : ℝ) = (N : ℝ) - 1 := by push_cast [Nat.cast_sub hN]; ring
    rw [e] at this
    exfalso
    nlinarith
  | ok m =>
    obtain ⟨f, h1, h2, h3, h4, h5, h6⟩ := setup_ok hs
    refine ⟨m, rfl, by omega, by omega, ?_, ?_, ?_, ?_⟩
    · intro k hk
      rw [h5, excOf_eq w E (by omega)]
      refine ⟨rfl, ?_⟩
      have := h3 k (by omega)
      linarith
    · intro k hk
      rw [h5, excOf_last w E (by omega)]
    · intro hE
      rw [h5]
      have : 0 < f := by
        rcases Nat.eq_zero_or_pos f with h | h
        · subst h; norm_num at h2; linarith
        · exact h
      rw [excOf_eq w E (by omega)]
      simp
    · intro k hk
      rw [h4]
      by_contra hc
      have : (f : ℝ) ≤ k := by exact_mod_cast (by omega : f ≤ k)
      nlinarith

/-- The calculation reduced to the exciton model on the grid of the target nucleus. -/
theorem run_eq (h : Reaction C me w N z a einc sn cms) (hs : ∀ e, 0 ≤ e → 0 ≤ sigma e) {el0 el1 : ℝ} (h0 : 0 ≤ el0) (h1 : 0 ≤ el1)
    (emax1 : ℝ) :
    ∃ (m : Mesh ℝ) (rm : ℝ) (tc : Nat → ℝ × ℝ), 0 < rm ∧ Data' tc m.exc ∧ 1 ≤ m.ntotal ∧ m.ntotal ≤ N ∧
      (∀ k, k + 1 < m.ntotal → m.exc k = cms - k * w ∧ w / 2 ≤ m.exc k) ∧ (∀ k, m.ntotal ≤ k + 1 → m.exc k = 0) ∧
      (∀ k : Nat, w / 2 ≤ cms - k * w → k + 1 < m.ntotal) ∧ (∀ k, tc k = (cms - m.exc k, sigma (cms - m.exc k))) ∧
      excitonInterface realFns Real.sqrt C me sigma w N el0 el1 emax1 z a einc = .ok
        (excNormalise (excitonModel realFns Real.sqrt C (spdOf realFns Real.sqrt einc z (a + 1)) (spdOf realFns Real.sqrt einc z a) (a + 1)
          (sn + cms) rm w tc m.exc m.ntotal) ++ List.replicate (N - m.ntotal) 0) := by
  obtain ⟨m0, m1, e0, e1, hsn, hm2, hcms⟩ := h.masses
  have hmn := h.mn
  have hcpos : 0 < cms := by rw [hcms]; have := h.energy; positivity
  obtain ⟨g0, s0, -, -, -, -, top, -⟩ := run_grid h.width (el := el0) (E := sn + cms) (by have := h.low; have := h.width; linarith) h.fits h0
  obtain ⟨g1, s1, n1, n2, x1, x2, -, x3⟩ := run_grid (N := N) h.width (el := el1) hcpos (by have := h.fits; have := h.sep; linarith) h1
  have hle : ∀ k, g1.exc k ≤ cms := by
    intro k
    rcases Nat.lt_or_ge (k + 1) g1.ntotal with hk | hk
    · rw [(x1 k hk).1]
      have := h.width
      have : 0 ≤ (k : ℝ) * w := by positivity
      linarith
    · rw [x2 k hk]; exact hcpos.le
  have htc : ∀ k, channel sigma (fun _ => 0) (g0.exc 0) sn g1.exc k = (cms - g1.exc k, sigma (cms - g1.exc k)) := by
    intro k
    unfold channel
    simp only []
    rw [top h.low]
    have e : sn + cms - g1.exc k - sn = cms - g1.exc k := by ring
    rw [e, if_neg (by have := hle k; linarith)]
  refine ⟨g1, (a + m1 / C.amu) * C.mn / (a + m1 / C.amu + C.mn), channel sigma (fun _ => 0) (g0.exc 0) sn g1.exc, by positivity, ?_,
    n1, n2, x1, x2, x3, htc, ?_⟩
  · refine ⟨fun k => ?_, fun k => ?_, fun k => ?_⟩
    · rw [htc]; have := hle k; show 0 ≤ cms - _; linarith
    · rw [htc]; have := hle k; exact hs _ (by linarith)
    · have := hle k; have := h.high; have := h.sep; linarith
  · unfold excitonInterface
    rw [e0]
    simp only [Res.bind_ok]
    rw [e1]
    simp only [Res.bind_ok]
    rw [← hsn, ← hcms, s0]
    simp only [Res.bind_ok]
    rw [if_pos (by linarith), show sn + cms - sn = cms by ring, s1]
    rfl

theorem normalise_pos {raw : List ℝ} (h : ∀ x ∈ raw, 0 ≤ x) {k : Nat} {v : ℝ} (hk : raw[k]? = some v) (hv : 0 < v) :
    (excNormalise raw)[k]? = some (v / raw.sum) ∧ 0 < v / raw.sum ∧ (excNormalise raw).sum = 1 := by
  have hpos : 0 < raw.sum := lt_of_lt_of_le hv (List.single_le_sum h _ (List.mem_of_getElem? hk))
  unfold excNormalise
  simp only [if_pos hpos]
  refine ⟨by rw [List.getElem?_map, hk]; rfl, by positivity, ?_⟩
  rw [sum_div, div_self hpos.ne']

theorem model_nonneg (hz : 1 ≤ z) (hn : z < a) (hp : 0 ≤ C.pi2) (hr : 0 ≤ C.rate) {ex rm w : ℝ} (hx : 0 ≤ ex) (hE : ex ≤ 38)
    (hrm : 0 ≤ rm) (hw : 0 ≤ w) {tc : Nat → ℝ × ℝ} {exc : Nat → ℝ} (hd : Data' tc exc) (nt : Nat) :
    ∀ x ∈ excitonModel realFns Real.sqrt C (spdOf realFns Real.sqrt einc z (a + 1)) (spdOf realFns Real.sqrt einc z a) (a + 1) ex rm w
      tc exc nt, 0 ≤ x := by
  obtain ⟨nn, f2, ho, f4⟩ := model_facts (C := C) (einc := einc) hz hn hp hr hx hE hrm hw hd nt
  intro y hy
  obtain ⟨k', _, rfl⟩ := List.mem_map.1 hy
  unfold excSpectrum
  split
  · exact le_rfl
  · refine List.sum_nonneg ?_
    intro y hy
    obtain ⟨c, hc, rfl⟩ := List.mem_map.1 hy
    obtain ⟨c1, c2⟩ := (mem_cells c).1 hc
    exact mul_nonneg (f2 _ _ _ c1 c2) (mul_nonneg (nn.t1 _ _ c1 c2) ((C77_nonneg _ nn).2 _ _ c1 c2))

/-- **C121.** For every target and every neutron energy with a total excitation energy of at most 38 MeV, whatever the optical
model returns as long as it is not negative, the pre-equilibrium spectrum has one entry for each bin, none negative; the
entries add up to one or all vanish; a populated bin has a positive neutron energy `k*w` and leaves the target nucleus at least
half a bin of the energy `cms`. -/
theorem C121_spectrum (h : Reaction C me w N z a einc sn cms) (hs : ∀ e, 0 ≤ e → 0 ≤ sigma e) {el0 el1 : ℝ} (h0 : 0 ≤ el0)
    (h1 : 0 ≤ el1) (emax1 : ℝ) :
    ∃ sp, excitonInterface realFns Real.sqrt C me sigma w N el0 el1 emax1 z a einc = .ok sp ∧ sp.length = N ∧ (∀ x ∈ sp, 0 ≤ x) ∧
      (sp.sum = 1 ∨ ∀ x ∈ sp, x = 0) ∧ ∀ (k : Nat) v, sp[k]? = some v → 0 < v → 1 ≤ k ∧ k * w + w / 2 ≤ cms := by
  obtain ⟨m, rm, tc, hrm, hd, n1, n2, x1, x2, x3, htc, he⟩ := run_eq h hs h0 h1 emax1
  have hx : 0 ≤ sn + cms := by have := h.low; have := h.width; linarith
  obtain ⟨nn, f2, ho, f4⟩ := model_facts (C := C) (einc := einc) h.protons h.neutrons h.pi2.le h.rate.le hx h.high hrm.le h.width.le hd m.ntotal
  have key := C79_exciton _ nn _ f2 m.ntotal
  simp only [] at key
  refine ⟨_, he, ?_⟩
  unfold excitonModel
  simp only []
  obtain ⟨k1, k2, k3, k4⟩ := key
  refine ⟨by rw [List.length_append, k1, List.length_replicate]; omega, ?_, ?_, ?_⟩
  · intro x hx
    rcases List.mem_append.1 hx with g | g
    · exact k2 x g
    · rw [(List.mem_replicate.1 g).2]
  · rcases k4 with ⟨g, _⟩ | g
    · left
      rw [List.sum_append, g]; simp
    · right
      intro x hx
      rcases List.mem_append.1 hx with g' | g'
      · exact g x g'
      · exact (List.mem_replicate.1 g').2
  · intro k v hv hpos
    rcases Nat.lt_or_ge k m.ntotal with hk | hk
    · rw [List.getElem?_append_left (by rw [k1]; exact hk)] at hv
      have hk0 : k ≠ 0 := by
        rintro rfl
        rw [k3 (by omega)] at hv
        have := Option.some.inj hv
        linarith
      refine ⟨by omega, ?_⟩
      by_contra hc
      have hlast : m.exc k = 0 := by
        apply x2
        by_contra hh
        have := x1 k (by omega)
        linarith [this.1, this.2]
      -- a bin without residual energy is empty
      have hz : ∀ i j, i < 6 → j < 6 → emitted realFns Real.sqrt C (spdOf realFns Real.sqrt einc z a) rm
          (pass realFns Real.sqrt C (spdOf realFns Real.sqrt einc z (a + 1)) (a + 1) (sn + cms) i j).omegaTotal tc m.exc (confAt i j) k = 0 := by
        intro i j hi hj
        unfold emitted
        simp only []
        split
        · rfl
        · unfold emission
          rw [density_zero _ _ (by rw [hlast]) _ (res_table hi hj), mul_zero]
      rcases k4 with ⟨_, g⟩ | g
      · have h0 := g k 0 (by
          rw [List.getElem?_map, List.getElem?_range hk]
          simp only [Option.map_some, Option.some.injEq]
          unfold excSpectrum
          rw [if_neg hk0]
          refine List.sum_eq_zero ?_
          intro y hy
          obtain ⟨c, hc, rfl⟩ := List.mem_map.1 hy
          obtain ⟨c1, c2⟩ := (mem_cells c).1 hc
          dsimp only
          rw [hz _ _ c1 c2]
          simp)
        rw [h0, zero_div] at hv
        have := Option.some.inj hv
        linarith
      · have := g v (List.mem_of_getElem? hv)
        linarith
    · rw [List.getElem?_append_right (by rw [k1]; exact hk)] at hv
      have := List.mem_of_getElem? hv
      have := (List.mem_replicate.1 this).2
      linarith

/-- If the total excitation energy exceeds the pairing energy of the composite nucleus by more than the Pauli energy of two neutron
particles and a hole, then every bin whose cross section is positive and whose residual energy exceeds the pairing energy of the
target is populated, and with one such bin the spectrum adds up to one. -/
theorem C121_populated (h : Reaction C me w N z a einc sn cms) (hs : ∀ e, 0 ≤ e → 0 ≤ sigma e) {el0 el1 : ℝ} (h0 : 0 ≤ el0)
    (h1 : 0 ≤ el1) (emax1 : ℝ) (hex : pairingDelta Real.sqrt z (a + 1) + 384 / 10 / ((a + 1 - z : Int) : ℝ) < sn + cms)
    (k : Nat) (hk : 1 ≤ k) (hk' : k * w + w / 2 ≤ cms) (hu : pairingDelta Real.sqrt z a < cms - k * w) (hσ : 0 < sigma (k * w)) :
    ∃ sp v, excitonInterface realFns Real.sqrt C me sigma w N el0 el1 emax1 z a einc = .ok sp ∧ sp[k]? = some v ∧ 0 < v ∧
      sp.sum = 1 := by
  obtain ⟨m, rm, tc, hrm, hd, n1, n2, x1, x2, x3, htc, he⟩ := run_eq h hs h0 h1 emax1
  have hx : 0 ≤ sn + cms := by have := h.low; have := h.width; linarith
  have hkn := x3 k (by linarith)
  have hek := (x1 k hkn).1
  have hcs : cms - m.exc k = k * w := by rw [hek]; ring
  have hkw : 0 < (k : ℝ) * w := by
    have : (1 : ℝ) ≤ k := by exact_mod_cast hk
    have := h.width
    positivity
  obtain ⟨v, hv, hpos⟩ := model_pos (C := C) (einc := einc) h.energy h.protons h.neutrons h.pi2 h.rate hx h.high hrm h.width hd m.ntotal hex k hk
    (by omega) (by rw [htc, hcs]; exact hσ) (by rw [htc, hcs]; exact hkw) (by rw [hek]; exact hu)
  obtain ⟨g1, g2, g3⟩ := normalise_pos (model_nonneg (C := C) (einc := einc) h.protons h.neutrons h.pi2.le h.rate.le hx h.high hrm.le h.width.le hd m.ntotal) hv hpos
  refine ⟨_, _, he, ?_, g2, ?_⟩
  · rw [List.getElem?_append_left]
    · exact g1
    · exact (List.getElem?_eq_some_iff.1 g1).1
  · rw [List.sum_append, g3]; simp

end

namespace RunDemo

/-- Simplified constants: masses in units with `amu = 1`. -/
def consts : Consts ℝ := ⟨931, 1, 8, 6, 1⟩

/-- Mass excesses of uranium-236 and uranium-235, rounded. -/
def masses : Int → Int → Res ℝ := fun _ a => if a = 236 then .ok 42 else if a = 235 then .ok 41 else .exit

/-- A neutron of 14 MeV on uranium-235: separation energy 7 MeV. -/
theorem reaction : Reaction consts masses (1 / 20) 2500 92 235 14 7 (14 * (235 + 41 / 931) / (235 + 41 / 931 + 1)) where
  protons := by norm_num
  neutrons := by norm_num
  masses := ⟨42, 41, by simp [masses], by simp [masses], by norm_num [consts], by norm_num [consts], by norm_num [consts]⟩
  mn := by norm_num [consts]
  pi2 := by norm_num [consts]
  rate := by norm_num [consts]
  energy := by norm_num
  width := by norm_num
  sep := by norm_num
  low := by norm_num
  high := by norm_num
  fits := by norm_num

theorem delta_le (z a : Int) (ha : 144 ≤ a) : pairingDelta Real.sqrt z a ≤ 2 := by
  have h12 : (12 : ℝ) ≤ Real.sqrt (a : ℝ) := by
    apply Real.le_sqrt_of_sq_le
    have : (144 : ℝ) ≤ a := by exact_mod_cast ha
    norm_num; linarith
  rcases pairingDelta_cases Real.sqrt z a with h | ⟨c, h1, h2, h⟩
  · rw [h]; norm_num
  · rw [h, div_le_iff₀ (by linarith)]
    nlinarith

/-- Hypotheses of `C121_spectrum` and `C121_populated` met: the bin of 5 MeV is populated. -/
example : ∃ sp v, excitonInterface realFns Real.sqrt consts masses (fun _ => 1) (1 / 20) 2500 0 0 0 92 235 14 = .ok sp ∧
    sp[100]? = some v ∧ 0 < v ∧ sp.sum = 1 := by
  refine C121_populated reaction (fun _ _ => zero_le_one) le_rfl le_rfl 0 ?_ 100 (by norm_num) (by norm_num) ?_ one_pos
  · have := delta_le 92 (235 + 1) (by norm_num)
    norm_num
    norm_num at this
    linarith
  · have := delta_le 92 235 (by norm_num)
    norm_num
    linarith

end RunDemo

end CGMF.Props

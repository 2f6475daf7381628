import Verif.Proofs.Gtrans
import Verif.Spec.Gtrans
import Verif.Props.HF
import Verif.Props.LevDen
import Verif.Props.Optical

/-! # C83, C84: gamma-ray transmission coefficients -/

namespace CGMF.Props

open CGMF.Gam CGMF.Spec.Gam Real

theorem proper_of {g : Gdr} (h : Physical g) : Proper g := ⟨h.1, h.2.1, h.2.2.le⟩

theorem generalized_value {eg a ex : ℝ} {g : Gdr} (hg : Physical g) (he : 0 < eg) (ha : 0 < a) (hx : 0 ≤ ex) :
    generalized 1 eg g a ex = .ok (kopeckyUhl g.energy g.width g.sigma eg √(ex / a)) := by
  obtain ⟨h1, h2, -⟩ := hg
  have hw := tempGamma_pos (t := √(ex / a)) he h1 h2
  have hpe : powEg 1 eg = .ok 1 := by
    unfold powEg
    rw [if_neg (by norm_num)]
    norm_num
  unfold generalized gdrTemp
  rw [if_neg (not_lt.2 hx), if_neg (not_le.2 ha)]
  simp only [Res.bind, if_true, hpe]
  rw [profile_eq he.ne' hw]
  simp only [if_neg (fun h : True ∧ g.energy = 0 => h1.ne' h.2)]
  congr 1
  unfold kopeckyUhl tempGamma
  rw [if_neg h1.ne', if_neg h1.ne']
  push_cast
  ring_nf

theorem standard_value {l : Nat} (hl : l = 1 ∨ l = 2) {eg : ℝ} {g : Gdr} (hg : Physical g) (he : eg ≠ 0) :
    standard l eg g = .ok (brinkAxel l g.energy g.width g.sigma eg) := by
  obtain ⟨h1, h2, -⟩ := hg
  have hpe : powEg l eg = .ok (1 / eg ^ (2 * l - 2)) := by
    unfold powEg
    rw [if_neg (fun h => he h.1)]
    rcases hl with rfl | rfl
    · norm_num
    · norm_num [zpow_neg]
  unfold standard
  simp only [hpe, Res.bind]
  rw [profile_eq he h2]
  simp only
  congr 1
  unfold brinkAxel
  ring

theorem standard_coefficient {gs : List Gdr} {eg : ℝ} (hg : ∀ g ∈ gs, Physical g) (he : eg ≠ 0) (xl : XL) (l : Nat)
    (hl : l = 1 ∨ l = 2) : transmission .SL l eg xl 0 0 gs = .ok (ofStrength l eg
      ((gs.filter fun g => decide (g.xl = xl)).map fun g => brinkAxel l g.energy g.width g.sigma eg).sum) := by
  have h := sumOver_eq (xl := xl) (f := fun g => standard l eg g)
    (v := fun g => brinkAxel l g.energy g.width g.sigma eg) gs fun g hgg _ => standard_value hl (hg g hgg) he
  unfold transmission
  erw [h]
  simp only [Res.bind, ofStrength]
  congr 1
  ring

/-- C83.  The E1 coefficient is `2π g E³` times the sum of the Kopecky-Uhl strengths of the E1 resonances at
temperature `√(ex/a)`. -/
theorem C83_E1 {gs : List Gdr} {eg a ex : ℝ} (hg : ∀ g ∈ gs, Physical g) (he : 0 < eg) (ha : 0 < a) (hx : 0 ≤ ex) :
    coefficient gs .E1 eg a ex = .ok (ofStrength 1 eg
      ((gs.filter fun g => decide (g.xl = .E1)).map
        fun g => kopeckyUhl g.energy g.width g.sigma eg √(ex / a)).sum) := by
  have h := sumOver_eq (xl := .E1) (f := fun g => generalized 1 eg g a ex)
    (v := fun g => kopeckyUhl g.energy g.width g.sigma eg √(ex / a)) gs
    fun g hgg _ => generalized_value (hg g hgg) he ha hx
  unfold coefficient transmission
  erw [h]
  simp only [Res.bind, ofStrength]
  congr 1
  ring

/-- C83, the temperature of the E1 strength.  A transition to the continuum uses the excitation energy left below the separation
energy, zero if the photon takes more than that; a transition to a level uses the energy of the level. -/
theorem C83_temperature {gs : List Gdr} (hg : ∀ g ∈ gs, Physical g) {sn a : ℝ} (ha : 0 < a) (exc : Nat → ℝ) :
    (∀ k1, exc k1 < exc 0 → contGamma gs sn a exc .E1 k1 = .ok (ofStrength 1 (exc 0 - exc k1)
      ((gs.filter fun g => decide (g.xl = .E1)).map
        fun g => kopeckyUhl g.energy g.width g.sigma (exc 0 - exc k1) √(max (sn - (exc 0 - exc k1)) 0 / a)).sum)) ∧
    ∀ e0 lev, 0 ≤ lev → lev < e0 → levGamma gs e0 a lev .E1 = .ok (ofStrength 1 (e0 - lev)
      ((gs.filter fun g => decide (g.xl = .E1)).map
        fun g => kopeckyUhl g.energy g.width g.sigma (e0 - lev) √(lev / a)).sum) := by
  refine ⟨fun k1 h => ?_, fun e0 lev h0 h => C83_E1 hg (by linarith) ha h0⟩
  have e : exOf sn (exc 0 - exc k1) = max (sn - (exc 0 - exc k1)) 0 := by
    unfold exOf
    split
    · rw [max_eq_left (by linarith)]
    · rw [max_eq_right (by linarith)]
  unfold contGamma
  rw [e]
  exact C83_E1 hg (by linarith) ha (le_max_right _ _)

/-- C83.  The M1 and E2 coefficients are `2π g E^(2l+1)` times the sum of the Brink-Axel strengths. -/
theorem C83_M1_E2 {gs : List Gdr} {eg a ex : ℝ} (hg : ∀ g ∈ gs, Physical g) (he : 0 < eg) :
    coefficient gs .M1 eg a ex = .ok (ofStrength 1 eg
      ((gs.filter fun g => decide (g.xl = .M1)).map fun g => brinkAxel 1 g.energy g.width g.sigma eg).sum) ∧
    coefficient gs .E2 eg a ex = .ok (ofStrength 2 eg
      ((gs.filter fun g => decide (g.xl = .E2)).map fun g => brinkAxel 2 g.energy g.width g.sigma eg).sum) :=
  ⟨standard_coefficient hg he.ne' .M1 1 (Or.inl rfl), standard_coefficient hg he.ne' .E2 2 (Or.inr rfl)⟩

/-- C83.  Every coefficient for a transition downwards in energy is defined and non-negative, and positive when there
is a resonance of its kind. -/
theorem C83_nonneg {gs : List Gdr} {eg a ex : ℝ} (hg : ∀ g ∈ gs, Physical g) (he : 0 < eg) (ha : 0 < a) (xl : XL) :
    ∃ t, coefficient gs xl eg a ex = .ok t ∧ 0 ≤ t ∧ (xl ≠ .none → (∃ g ∈ gs, g.xl = xl) → 0 < t) := by
  have hp : ∀ g ∈ gs, Proper g := fun g h => proper_of (hg g h)
  have fin : ∀ {t : ℝ}, ((∃ g ∈ gs, g.xl = xl ∧ 0 < g.sigma) → 0 < t) → (xl ≠ .none → (∃ g ∈ gs, g.xl = xl) → 0 < t) :=
    fun h _ ⟨g, h1, h2⟩ => h ⟨g, h1, h2, (hg g h1).2.2⟩
  cases xl with
  | none => exact ⟨0, rfl, le_rfl, fun h => absurd rfl h⟩
  | E1 =>
    obtain ⟨t, h1, h2, h3⟩ := generalized_nonneg (l := 1) (ex := ex) (xl := .E1) he ha hp
    exact ⟨t, h1, h2, fin h3⟩
  | M1 =>
    obtain ⟨t, h1, h2, h3⟩ := standard_nonneg (l := 1) (a := 0) (ex := 0) (xl := .M1) he hp
    exact ⟨t, h1, h2, fin h3⟩
  | E2 =>
    obtain ⟨t, h1, h2, h3⟩ := standard_nonneg (l := 2) (a := 0) (ex := 0) (xl := .E2) he hp
    exact ⟨t, h1, h2, fin h3⟩

/-- C83, refuted for a transition of energy zero: the E2 coefficient is infinity times zero whenever there is an E2
resonance, whatever the other parameters. -/
theorem C83_zero_energy {gs : List Gdr} (h : ∃ g ∈ gs, g.xl = .E2) (a ex : ℝ) : coefficient gs .E2 0 a ex = .ub := by
  have hs : ∀ gs : List Gdr, (∃ g ∈ gs, g.xl = .E2) → sumOver .E2 (fun g => standard 2 0 g) gs = .ub := by
    intro gs
    induction gs with
    | nil => simp
    | cons g gs ih =>
      intro h
      have hst : standard 2 0 g = .ub := by
        unfold standard powEg
        simp [Res.bind]
      rw [sumOver]
      by_cases hx : g.xl = .E2
      · rw [if_pos hx, hst]; rfl
      · rw [if_neg hx]
        obtain ⟨g', hg', hl⟩ := h
        rcases List.mem_cons.1 hg' with rfl | hg'
        · exact absurd hl hx
        · exact ih ⟨g', hg', hl⟩
  unfold coefficient transmission
  erw [hs gs h]
  rfl

/-- C83.  The parameters of every nucleus lighter than mass 509 and less deformed than 282/263: the E1 resonance (two
when deformed), one M1, one E2, no more than the six the array holds, all physical; and the M1 strength at 7 MeV is
`17.01 A^(-0.878)` times the E1 strength there. -/
theorem C83_setup {z mass a beta : ℝ} (hz : z ≠ 0) (hm : 0 < mass) (hm' : mass < 509) (ha : 0 < a)
    (hb : beta < 282 / 263) :
    ∃ gs, setupGdr z mass a beta = .ok gs ∧ (∀ g ∈ gs, Physical g) ∧
      gs.map Gdr.xl = (if beta = 0 then [.E1] else [.E1, .E1]) ++ [.M1, .E2] ∧ gs.length ≤ 6 ∧
      ∃ fm fe, 0 < fe ∧
        ((gs.filter fun g => decide (g.xl = .E1)).map fun g => kopeckyUhl g.energy g.width g.sigma 7 0).sum = fe ∧
        ((gs.filter fun g => decide (g.xl = .M1)).map fun g => brinkAxel 1 g.energy g.width g.sigma 7).sum = fm ∧
        fm = 1701 / 100 * mass ^ (-(878 / 1000) : ℝ) * fe := by
  have hp : ∀ x : ℝ, 0 < mass ^ x := fun x => rpow_pos_of_pos hm x
  have hz2 : 0 < z * z := mul_self_pos.2 hz
  obtain ⟨es, hes, hdef, hlab, hlen⟩ : ∃ es : List Gdr, (∀ x ∈ es, x.xl = .E1 ∧ Physical x) ∧
      setupGdr z mass a beta = m1norm mass a (es ++ [m1 mass, e2 z mass]) ∧
      es.map Gdr.xl = (if beta = 0 then [.E1] else [.E1, .E1]) ∧ 1 ≤ es.length ∧ es.length ≤ 2 := by
    by_cases h0 : beta = 0
    · subst h0
      refine ⟨[dArigo mass 0], ?_, by unfold setupGdr; rw [if_pos rfl], by simp [dArigo], by simp⟩
      intro x hx
      rw [List.mem_singleton] at hx
      subst hx
      have h1 := hp (-(2409 / 10000))
      refine ⟨rfl, ?_, ?_, ?_⟩ <;> unfold dArigo <;> dsimp only <;> rw [mul_zero, add_zero] <;> positivity
    · refine ⟨[dArigo0 mass beta, dArigo1 mass beta], ?_, by unfold setupGdr; rw [if_neg h0],
        by simp [dArigo0, dArigo1, h0], by simp⟩
      have h1 := hp (-(232 / 1000))
      have h2 := exp_pos (-(946 / 1000) * beta)
      have h3 : 0 < 282 / 1000 - 263 / 1000 * beta := by linarith
      have h4 : 0 < 35 / 100 - 14 / 100 * beta := by linarith
      intro x hx
      rcases List.mem_cons.1 hx with rfl | hx
      · refine ⟨rfl, ?_, ?_, ?_⟩ <;> unfold dArigo0 <;> dsimp only <;> positivity
      · rw [List.mem_singleton] at hx
        subst hx
        refine ⟨rfl, ?_, ?_, ?_⟩ <;> unfold dArigo1 <;> dsimp only <;> positivity
  have he2 : Physical (e2 z mass) := by
    have h1 := hp (1 / 3)
    have h2 : 0 < 611 / 100 - 12 / 1000 * mass := by linarith
    refine ⟨?_, ?_, ?_⟩ <;> unfold e2 <;> dsimp only
    · positivity
    · exact h2
    · have : 15 / 100000 * z * z * (63 * (1 / mass ^ (1 / 3 : ℝ))) * (63 * (1 / mass ^ (1 / 3 : ℝ))) *
          (1 / mass ^ (1 / 3 : ℝ)) / (611 / 100 - 12 / 1000 * mass) =
          (z * z) * (15 / 100000 * (63 * (1 / mass ^ (1 / 3 : ℝ))) * (63 * (1 / mass ^ (1 / 3 : ℝ))) *
          (1 / mass ^ (1 / 3 : ℝ)) / (611 / 100 - 12 / 1000 * mass)) := by ring
      rw [this]
      positivity
  have hm1 : ∀ s : ℝ, 0 < s → Physical { m1 mass with sigma := s } := by
    intro s hs
    have h1 := hp (1 / 3)
    refine ⟨?_, ?_, hs⟩ <;> unfold m1 <;> dsimp only <;> positivity
  obtain ⟨s, fe, fm, hs, hfe, hok, hE, hM, hr⟩ := m1norm_ok (g := m1 mass) (e := e2 z mass) hm ha
    (fun x hx => ⟨(hes x hx).1, proper_of (hes x hx).2⟩)
    (by
      obtain ⟨x, hx⟩ := List.exists_mem_of_length_pos (by omega : 0 < es.length)
      exact ⟨x, hx, (hes x hx).2.2.2⟩) rfl (by unfold m1; norm_num) rfl rfl
  have hall : ∀ g ∈ es ++ [{ m1 mass with sigma := s }, e2 z mass], Physical g := by
    intro g hg
    rcases List.mem_append.1 hg with hg | hg
    · exact (hes g hg).2
    · simp only [List.mem_cons, List.not_mem_nil, or_false] at hg
      rcases hg with rfl | rfl
      · exact hm1 s hs
      · exact he2
  refine ⟨_, hdef.trans hok, hall, ?_, ?_, fm, fe, hfe, ?_, ?_, hr⟩
  · rw [List.map_append, hlab]
    rfl
  · simp; omega
  · have h := sumOver_eq (xl := .E1) (f := fun g => generalized 1 7 g a 0)
      (v := fun g => kopeckyUhl g.energy g.width g.sigma 7 √(0 / a)) _
      fun g hgg _ => generalized_value (hall g hgg) (by norm_num) ha le_rfl
    rw [hE, zero_div, sqrt_zero] at h
    exact (Res.ok.inj h).symm
  · have h := sumOver_eq (xl := .M1) (f := fun g => standard 1 7 g)
      (v := fun g => brinkAxel 1 g.energy g.width g.sigma 7) _
      fun g hgg _ => standard_value (Or.inl rfl) (hall g hgg) (by norm_num)
    rw [hM] at h
    exact (Res.ok.inj h).symm

/-- C83.  The M1 and E2 coefficients do not tell emission from absorption: a transition upwards in energy gets the
coefficient of the one downwards. -/
theorem C83_even {gs : List Gdr} {eg a ex : ℝ} (hg : ∀ g ∈ gs, Physical g) :
    coefficient gs .M1 (-eg) a ex = coefficient gs .M1 eg a ex ∧
    coefficient gs .E2 (-eg) a ex = coefficient gs .E2 eg a ex := by
  by_cases he : eg = 0
  · rw [he, neg_zero]; exact ⟨rfl, rfl⟩
  have key : ∀ (l : Nat), l = 1 ∨ l = 2 → ∀ l' : List Gdr,
      ofStrength l (-eg) (l'.map fun g => brinkAxel l g.energy g.width g.sigma (-eg)).sum =
      ofStrength l eg (l'.map fun g => brinkAxel l g.energy g.width g.sigma eg).sum := by
    intro l hl l'
    have hodd : ∀ g : Gdr, brinkAxel l g.energy g.width g.sigma (-eg) = -brinkAxel l g.energy g.width g.sigma eg := by
      intro g
      unfold brinkAxel
      rcases hl with rfl | rfl
      · norm_num; ring
      · norm_num; ring
    have hsum : (l'.map fun g => brinkAxel l g.energy g.width g.sigma (-eg)).sum =
        -(l'.map fun g => brinkAxel l g.energy g.width g.sigma eg).sum := by
      induction l' with
      | nil => simp
      | cons g l' ih => rw [List.map_cons, List.sum_cons, ih, hodd, List.map_cons, List.sum_cons]; ring
    rw [hsum]
    unfold ofStrength
    rcases hl with rfl | rfl <;> ring
  have hne : -eg ≠ 0 := neg_ne_zero.2 he
  unfold coefficient
  simp only
  rw [standard_coefficient hg he .M1 1 (Or.inl rfl), standard_coefficient hg hne .M1 1 (Or.inl rfl),
    standard_coefficient hg he .E2 2 (Or.inr rfl), standard_coefficient hg hne .E2 2 (Or.inr rfl),
    key 1 (Or.inl rfl), key 2 (Or.inr rfl)]
  exact ⟨rfl, rfl⟩

/-! ## C84: one decay step with computed coefficients -/

open CGMF.HF CGMF.Grid CGMF.LevDen CGMF.MC

/-- Label of a multipole. -/
def label : Mult → XL
  | .E1 => .E1
  | .M1 => .M1
  | .E2 => .E2

/-- The number in a stored coefficient; C84 shows which ones are defined. -/
noncomputable def stored : Res ℝ → ℝ
  | .ok x => x
  | _ => 0

/-- A density table as the array `density[k][j]`. -/
noncomputable def asDensity (rows : List (List (ℝ × ℝ))) (k : Nat) (i : Int) (even : Bool) : ℝ :=
  match (rows[k]?).bind fun r => r[i.toNat]? with
  | some c => if even then c.1 else c.2
  | none => 0

/-- The result of `omCalc` as the array `tran`, at index `3 l` for spin up and `3 l + 1` for spin down. -/
noncomputable def asTran (o : Option (Opt.OmOut ℝ)) (i : Nat) : ℝ :=
  match o.bind fun o => o.tran[i / 3]? with
  | some t => if i % 3 = 0 then t.1 else if i % 3 = 1 then t.2 else 0
  | none => 0

/-- Everything a decay step reads, computed by the code's own routines: resonances `gs`, separation energy `sn`,
density parameters `a` and `al i`, density tables of both nuclei and optical-model results for the bins and levels of
the daughter. -/
noncomputable def computed (gs : List Gdr) (sn a : ℝ) (al : Nat → ℝ) (n0 : Nuc ℝ) (m0 : Mesh ℝ)
    (rows0 rows1 : List (List (ℝ × ℝ))) (oC oD : Nat → Option (Opt.OmOut ℝ)) : Phys ℝ where
  tgC mu k := if 0 < k ∧ k < m0.ncont then stored (contGamma gs sn a m0.exc (label mu) k) else 0
  tgD mu i := match n0.levels[i]? with
    | some l => stored (levGamma gs (m0.exc 0) (al i) l.energy (label mu))
    | none => 0
  dens0 := asDensity rows0
  dens1 := asDensity rows1
  lmaxC k := match oC k with | some o => o.lmax | none => -1
  tranC k := asTran (oC k)
  lmaxD k := match oD k with | some o => o.lmax | none => -1
  tranD k := asTran (oD k)

/-- C84.  Every gamma-ray coefficient a decay step reads is defined and positive: all transitions from a continuum
state of CGMF's grid go downwards in energy. -/
theorem C84_gamma {z mass a sn w E : ℝ} {N : Nat} {al : Nat → ℝ} {gs : List Gdr} {n0 : Nuc ℝ} {m0 : Mesh ℝ} (hz : z ≠ 0)
    (hm : 0 < mass) (hm' : mass < 509) (ha : 0 < a) (hal : ∀ i, 0 < al i) (hgs : setupGdr z mass a 0 = .ok gs)
    (hw : 0 < w) (hE : w / 2 ≤ E) (hlev : ∀ l ∈ n0.levels, 0 ≤ l.energy ∧ l.energy ≤ elmax n0.levels)
    (hmesh : Grid.setup w N (elmax n0.levels) E = .ok m0) (hc : 0 < m0.ncont) :
    (∀ mu k, 0 < k → k < m0.ncont → ∃ t, contGamma gs sn a m0.exc (label mu) k = .ok t ∧ 0 < t) ∧
    (∀ mu i l, n0.levels[i]? = some l → ∃ t, levGamma gs (m0.exc 0) (al i) l.energy (label mu) = .ok t ∧ 0 < t) := by
  obtain ⟨gs', h1, hphys, hlab, -⟩ := C83_setup (beta := 0) hz hm hm' ha (by norm_num)
  rw [hgs] at h1
  cases h1
  have hel : 0 ≤ elmax n0.levels := by
    unfold elmax
    split
    · rename_i l hl
      exact (hlev l (List.mem_of_getLast? hl)).1
    · exact le_rfl
  have hkind : ∀ mu, label mu ≠ .none ∧ ∃ g ∈ gs, g.xl = label mu := by
    intro mu
    have : label mu ∈ gs.map Gdr.xl := by
      rw [hlab, if_pos rfl]
      cases mu <;> simp [label]
    obtain ⟨g, hg, he⟩ := List.mem_map.1 this
    exact ⟨by cases mu <;> simp [label], g, hg, he⟩
  have pos : ∀ mu (eg a ex : ℝ), 0 < eg → 0 < a → ∃ t, coefficient gs (label mu) eg a ex = .ok t ∧ 0 < t := by
    intro mu eg a ex h1 h2
    obtain ⟨t, h3, -, h4⟩ := C83_nonneg (ex := ex) hphys h1 h2 (label mu)
    exact ⟨t, h3, h4 (hkind mu).1 (hkind mu).2⟩
  rcases C25_grid w hw N E (elmax n0.levels) hE hel with ⟨h, -⟩ | ⟨m, hs, -, h2, h3, h4, h5, h6, h7, h8, h9, h10, h11⟩
  · rw [hmesh] at h; cases h
  rw [hmesh] at hs
  cases hs
  refine ⟨fun mu k h0 hk => pos mu _ _ _ ?_ ha, fun mu i l hl => pos mu _ _ _ ?_ (hal i)⟩
  · obtain ⟨e, -⟩ := h6 k (by omega)
    rw [h5, e]
    have : (0 : ℝ) < k := by exact_mod_cast h0
    have := mul_pos this hw
    linarith
  · have hl' := hlev l (List.mem_of_getElem? hl)
    have : elmax n0.levels < E := by
      by_contra hlt
      rcases hel.eq_or_lt with h0 | h0
      · rw [← h0] at hlt; linarith
      · have := h11 (not_lt.1 hlt) h0
        omega
    rw [h5]
    linarith

/-- C84.  One decay step, with every coefficient and density computed by the code's own routines and nothing assumed
about them: the populations of the daughter states are non-negative and add up to one. -/
theorem C84_flux {z mass a sn w E : ℝ} {N maxJ : Nat} {al : Nat → ℝ} {gs : List Gdr} {n0 n1 : Nuc ℝ} {m0 m1 : Mesh ℝ}
    {mass0 mass1 : ℝ} {js0 js1 exs0 exs1 : List ℝ} {p0 p0' p1 p1' : Ldp} {rows0 rows1 : List (List (ℝ × ℝ))}
    {oC oD : Nat → Option (Opt.OmOut ℝ)} (hz : z ≠ 0)
    (hm : 0 < mass) (hm' : mass < 509) (ha : 0 < a) (hal : ∀ i, 0 < al i) (hgs : setupGdr z mass a 0 = .ok gs)
    (hw : 0 < w) (hE : w / 2 ≤ E) (hlev : ∀ l ∈ n0.levels, 0 ≤ l.energy ∧ l.energy ≤ elmax n0.levels)
    (hmesh : Grid.setup w N (elmax n0.levels) E = .ok m0) (hc : 0 < m0.ncont)
    (hd0 : 0 < mass0 ∧ 0 < p0.temp ∧ (p0.matchE ≠ 0 → p0.pairing < p0.matchE))
    (hr0 : densityTable mass0 js0 exs0 p0 = .ok (rows0, p0'))
    (hd1 : 0 < mass1 ∧ 0 < p1.temp ∧ (p1.matchE ≠ 0 → p1.pairing < p1.matchE))
    (hr1 : densityTable mass1 js1 exs1 p1 = .ok (rows1, p1'))
    (hoC : ∀ k o, oC k = some o → ∃ su e cut energy, Opt.omCalc su e cut energy = .ok (some o))
    (hoD : ∀ k o, oD k = some o → ∃ su e cut energy, Opt.omCalc su e cut energy = .ok (some o))
    (p j jmax0 jmax1 : Int) (pops : Pops ℝ) (s s' : List ℝ)
    (h : compoundDecay maxJ w n0 n1 m0 m1 (computed gs sn a al n0 m0 rows0 rows1 oC oD) p j jmax0 jmax1 s =
      .ok (pops, s')) :
    (∀ t ∈ candidates n0 n1 m0 m1 pops, 0 ≤ t.2) ∧ ((candidates n0 n1 m0 m1 pops).map Prod.snd).sum = 1 := by
  obtain ⟨g1, g2⟩ := C84_gamma (sn := sn) hz hm hm' ha hal hgs hw hE hlev hmesh hc
  have hdens : ∀ {mass : ℝ} {js exs : List ℝ} {p p' : Ldp} {rows}, (0 < mass ∧ 0 < p.temp ∧
      (p.matchE ≠ 0 → p.pairing < p.matchE)) → densityTable mass js exs p = .ok (rows, p') →
      ∀ k i e, 0 ≤ asDensity rows k i e := by
    intro mass js exs p p' rows hd hr k i e
    have hf := C81_densities hd.1 hd.2.1 hd.2.2 hr
    unfold asDensity
    split
    · rename_i c hc
      obtain ⟨row, hrow, hcell⟩ := Option.bind_eq_some_iff.1 hc
      obtain ⟨-, hh⟩ : row.length = js.length ∧ ∀ c ∈ row, 0 ≤ c.1 ∧ c.1 = c.2 := by
        have hmem := List.mem_of_getElem? hrow
        clear hc hrow hr
        induction hf with
        | nil => simp at hmem
        | cons ha _ ih =>
          rcases List.mem_cons.1 hmem with rfl | hmem
          · exact ha
          · exact ih hmem
      obtain ⟨c1, c2⟩ := hh c (List.mem_of_getElem? hcell)
      split
      · exact c1
      · exact c2 ▸ c1
    · exact le_rfl
  have htran : ∀ {oo : Nat → Option (Opt.OmOut ℝ)}, (∀ k o, oo k = some o → ∃ su e cut energy,
      Opt.omCalc su e cut energy = .ok (some o)) → ∀ k i, 0 ≤ asTran (oo k) i := by
    intro oo hoo k i
    unfold asTran
    split
    · rename_i t ht
      obtain ⟨o, ho, htr⟩ := Option.bind_eq_some_iff.1 ht
      obtain ⟨su, e, cut, energy, hom⟩ := hoo k o ho
      have := C71_probability su e cut energy o hom t (List.mem_of_getElem? htr)
      split
      · exact this.1
      · split
        · exact this.2.2.1
        · exact le_rfl
    · exact le_rfl
  refine C30_flux maxJ w hw.le n0 n1 m0 m1 _ ⟨?_, ?_, hdens hd0 hr0, hdens hd1 hr1, htran hoC, htran hoD⟩ p j jmax0
    jmax1 pops s s' h
  · intro mu k
    show 0 ≤ (if 0 < k ∧ k < m0.ncont then stored (contGamma gs sn a m0.exc (label mu) k) else 0)
    split
    · rename_i hk
      obtain ⟨t, ht, h0⟩ := g1 mu k hk.1 hk.2
      rw [ht]
      exact h0.le
    · exact le_rfl
  · intro mu i
    show 0 ≤ (match n0.levels[i]? with
      | some l => stored (levGamma gs (m0.exc 0) (al i) l.energy (label mu))
      | none => 0)
    split
    · rename_i l hl
      obtain ⟨t, ht, h0⟩ := g2 mu i l hl
      rw [ht]
      exact h0.le
    · exact le_rfl

/-! ## Concrete cases -/

namespace GtransDemo

/-- Resonances of zirconium-100. -/
example : ∃ gs, setupGdr 40 100 15 0 = .ok gs ∧ gs.length = 3 ∧
    (∃ t, coefficient gs .E1 5 15 1 = .ok t ∧ 0 < t) ∧ (∃ t, coefficient gs .E2 5 15 1 = .ok t ∧ 0 < t) ∧
    coefficient gs .E2 0 15 1 = .ub := by
  obtain ⟨gs, h1, h2, h3, -⟩ := C83_setup (z := 40) (mass := 100) (a := 15) (beta := 0) (by norm_num) (by norm_num)
    (by norm_num) (by norm_num) (by norm_num)
  have hmem : ∀ xl ∈ [XL.E1, XL.M1, XL.E2], ∃ g ∈ gs, g.xl = xl := by
    intro xl h
    have : xl ∈ gs.map Gdr.xl := by rw [h3, if_pos rfl]; simpa using h
    exact List.mem_map.1 this
  refine ⟨gs, h1, ?_, ?_, ?_, C83_zero_energy (hmem .E2 (by simp)) _ _⟩
  · have := congrArg List.length h3
    simpa using this
  · obtain ⟨t, h, -, hp⟩ := C83_nonneg (eg := 5) (a := 15) (ex := 1) h2 (by norm_num) (by norm_num) .E1
    exact ⟨t, h, hp (by simp) (hmem .E1 (by simp))⟩
  · obtain ⟨t, h, -, hp⟩ := C83_nonneg (eg := 5) (a := 15) (ex := 1) h2 (by norm_num) (by norm_num) .E2
    exact ⟨t, h, hp (by simp) (hmem .E2 (by simp))⟩

/-- One resonance at its peak: the M1 strength is `26e-8/3 σ/E`. -/
example : coefficient [⟨.M1, 10, 4, 1⟩] .M1 10 0 0 = .ok (ofStrength 1 10 (26 / 10 ^ 8 / 3 / 10)) := by
  have h := (C83_M1_E2 (gs := [⟨.M1, 10, 4, 1⟩]) (eg := 10) (a := 0) (ex := 0)
    (by intro g hg; rw [List.mem_singleton] at hg; subst hg; exact ⟨by norm_num, by norm_num, by norm_num⟩)
    (by norm_num)).1
  rw [h]
  congr 1
  simp [brinkAxel]
  norm_num

/-- A parent at 2 MeV with levels at 0 and 1/2 MeV on bins of 1 MeV. -/
noncomputable def n0 : Nuc ℝ := ⟨40, 100, [⟨0, 0, 1, 0, []⟩, ⟨1 / 2, 4, 1, 0, []⟩], 6, false, 0⟩

noncomputable def m0 : Mesh ℝ := ⟨3, 1, excOf 1 2 3⟩

theorem mesh : Grid.setup 1 4 (elmax n0.levels) 2 = .ok m0 := by
  have hf : firstAbove (1 : ℝ) 4 2 = .ok 2 := by
    unfold firstAbove
    simp [List.range_succ, List.find?, binEnergy]
    norm_num
  have hn : ncontOf (2 : ℝ) (elmax n0.levels) 3 (excOf 1 2 3) = 1 := by
    unfold ncontOf
    simp [n0, elmax, excOf, List.range', List.find?, binEnergy]
    norm_num
  unfold Grid.setup m0
  rw [hf]
  show Res.ok _ = _
  rw [hn]

example : ∃ gs rows p' pops s', setupGdr 40 100 15 0 = .ok gs ∧
    densityTable 100 [0, 1] [1, 2] ⟨0, 1, 1, 0, 10, 1, 3, 4⟩ = .ok (rows, p') ∧
    compoundDecay 50 1 n0 n0 m0 m0 (computed gs 6 15 (fun _ => 15) n0 m0 rows rows (fun _ => none) fun _ => none)
      1 1 0 0 [1 / 2, 1 / 3] = .ok (pops, s') ∧
    (∀ t ∈ candidates n0 n0 m0 m0 pops, 0 ≤ t.2) ∧ ((candidates n0 n0 m0 m0 pops).map Prod.snd).sum = 1 := by
  obtain ⟨gs, h1, -⟩ := C83_setup (z := 40) (mass := 100) (a := 15) (beta := 0) (by norm_num) (by norm_num)
    (by norm_num) (by norm_num) (by norm_num)
  obtain ⟨⟨rows, p'⟩, hr⟩ : ∃ r, densityTable 100 [0, 1] [1, 2] ⟨0, 1, 1, 0, 10, 1, 3, 4⟩ = .ok r := by
    simp only [densityTable, densityBin, levelDensity, constTemp, if_true, Res.bind, List.foldr, spinDistribution,
      one_ne_zero, if_false]
    norm_num
  obtain ⟨pops, s', hd⟩ := C30_defined 50 1 n0 n0 m0 m0
    (computed gs 6 15 (fun _ => 15) n0 m0 rows rows (fun _ => none) fun _ => none) 1 1 0 0 [1 / 2, 1 / 3]
    (by simp [n0]) ⟨_, rfl, by decide⟩
  refine ⟨gs, rows, p', pops, s', h1, hr, hd, ?_⟩
  refine C84_flux (z := 40) (mass := 100) (a := 15) (E := 2) (N := 4) (by norm_num) (by norm_num) (by norm_num)
    (by norm_num) (fun _ => by norm_num) h1 one_pos (by norm_num) ?_ mesh (by simp [m0])
    ⟨by norm_num, one_pos, fun h => absurd rfl h⟩ hr ⟨by norm_num, one_pos, fun h => absurd rfl h⟩ hr
    (fun _ _ h => by cases h) (fun _ _ h => by cases h) 1 1 0 0 pops _ s' hd
  intro l hl
  simp only [n0, List.mem_cons, List.not_mem_nil, or_false] at hl
  rcases hl with rfl | rfl <;> norm_num [n0, elmax]

end GtransDemo

/-- A photon of 7 MeV from 12 MeV with a separation energy of 8 MeV: one MeV is left for the temperature, whatever the final energy. -/
example : contGamma [⟨.E1, 15, 5, 1⟩] 8 4 (fun k => if k = 0 then 12 else 5) .E1 1 = .ok (ofStrength 1 7 (kopeckyUhl 15 5 1 7 √(1 / 4))) := by
  have h := (C83_temperature (gs := [⟨.E1, 15, 5, 1⟩]) (by
    intro g hg
    obtain rfl : g = ⟨.E1, 15, 5, 1⟩ := by simpa using hg
    constructor <;> norm_num) (sn := 8) (a := 4) (by norm_num) (fun k => if k = 0 then 12 else 5)).1 1 (by norm_num)
  rw [h]
  norm_num

end CGMF.Props

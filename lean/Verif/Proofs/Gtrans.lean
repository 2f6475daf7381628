import Verif.Model.Gtrans
import Verif.Proofs.LevDen

/-! # Lemmas about gamma-ray transmission coefficients -/

namespace CGMF.Gam

open Real

/-- A resonance with positive energy and width and non-negative strength. -/
structure Proper (g : Gdr) : Prop where
  energy : 0 < g.energy
  width : 0 < g.width
  sigma : 0 ≤ g.sigma

theorem profile_pos {eg er w : ℝ} (he : 0 < eg) (hw : 0 < w) : ∃ x, profile eg er w = .ok x ∧ 0 < x := by
  have hd : 0 < (er * er - eg * eg) * (er * er - eg * eg) + eg * eg * w * w := by
    have := mul_self_nonneg (er * er - eg * eg)
    positivity
  refine ⟨eg * w / ((er * er - eg * eg) * (er * er - eg * eg) + eg * eg * w * w), ?_, by positivity⟩
  unfold profile
  rw [if_neg (by push Not; intro _; positivity)]
  dsimp only
  rw [if_neg hd.ne']

theorem powEg_pos {l : Nat} {eg : ℝ} (he : 0 < eg) : ∃ x, powEg l eg = .ok x ∧ 0 < x := by
  refine ⟨eg ^ (2 - 2 * (l : ℤ)), ?_, zpow_pos he _⟩
  unfold powEg
  rw [if_neg (fun h => he.ne' h.1)]

theorem tempGamma_pos {eg er w t : ℝ} (he : 0 < eg) (hr : 0 < er) (hw : 0 < w) : 0 < tempGamma eg er w t := by
  unfold tempGamma
  rw [if_neg hr.ne']
  have h : 0 ≤ 4 * π * π * t * t := by
    have := mul_self_nonneg t
    have hp := pi_pos
    have : 4 * π * π * t * t = 4 * π * π * (t * t) := by ring
    rw [this]; positivity
  have : 0 < eg * eg + 4 * π * π * t * t := by nlinarith
  positivity

theorem tempGamma_nonneg {er w t : ℝ} (hr : 0 < er) (hw : 0 < w) : 0 ≤ tempGamma 0 er w t := by
  unfold tempGamma
  rw [if_neg hr.ne']
  have h : 0 ≤ 4 * π * π * t * t := by
    have := mul_self_nonneg t
    have hp := pi_pos
    have : 4 * π * π * t * t = 4 * π * π * (t * t) := by ring
    rw [this]; positivity
  have : 0 ≤ 0 * 0 + 4 * π * π * t * t := by linarith
  positivity

/-- The standard Lorentzian is the strength times a positive number that does not depend on the strength. -/
theorem standard_lin (l : Nat) {eg : ℝ} (he : 0 < eg) {e w : ℝ} (hw : 0 < w) :
    ∃ c, 0 < c ∧ ∀ xl s, standard l eg ⟨xl, e, w, s⟩ = .ok (s * c) := by
  obtain ⟨q, hq, hq0⟩ := powEg_pos (l := l) he
  obtain ⟨x, hx, hx0⟩ := profile_pos (er := e) he hw
  refine ⟨26 / 10 ^ 8 / (2 * l + 1) * w * q * x, by positivity, fun xl s => ?_⟩
  unfold standard
  simp only [hq, hx, Res.bind]
  congr 1
  ring

theorem generalized_lin (l : Nat) {eg a ex : ℝ} (he : 0 < eg) (ha : 0 < a) {e w : ℝ} (hr : 0 < e) (hw : 0 < w) :
    ∃ c, 0 < c ∧ ∀ xl s, generalized l eg ⟨xl, e, w, s⟩ a ex = .ok (s * c) := by
  obtain ⟨t, ht⟩ : ∃ t, gdrTemp a ex = .ok t := by
    unfold gdrTemp
    split
    · exact ⟨0, rfl⟩
    · rw [if_neg (not_le.2 ha)]; exact ⟨_, rfl⟩
  obtain ⟨q, hq, hq0⟩ := powEg_pos (l := l) he
  have hg : 0 < (if l = 1 then tempGamma eg e w t else w) := by
    split
    · exact tempGamma_pos he hr hw
    · exact hw
  obtain ⟨x, hx, hx0⟩ := profile_pos (er := e) he hg
  have hy : 0 ≤ (if l = 1 then 7 / 10 * tempGamma 0 e w t / (e * e * e) else (0 : ℝ)) := by
    split
    · have := tempGamma_nonneg (t := t) hr hw
      positivity
    · exact le_rfl
  refine ⟨26 / 10 ^ 8 / (2 * l + 1) * w * q *
    (x + (if l = 1 then 7 / 10 * tempGamma 0 e w t / (e * e * e) else 0)), ?_, fun xl s => ?_⟩
  · have : 0 < x + (if l = 1 then 7 / 10 * tempGamma 0 e w t / (e * e * e) else (0 : ℝ)) := by linarith
    positivity
  · unfold generalized
    simp only [ht, hq, hx, Res.bind]
    rw [if_neg (fun h => hr.ne' h.2)]
    congr 1
    ring

theorem sumOver_nonneg {xl : XL} {f : Gdr → Res ℝ} : ∀ gs : List Gdr,
    (∀ g ∈ gs, g.xl = xl → ∃ x, f g = .ok x ∧ 0 ≤ x ∧ (0 < g.sigma → 0 < x)) →
    ∃ s, sumOver xl f gs = .ok s ∧ 0 ≤ s ∧ ((∃ g ∈ gs, g.xl = xl ∧ 0 < g.sigma) → 0 < s) := by
  intro gs
  induction gs with
  | nil => exact fun _ => ⟨0, rfl, le_rfl, fun ⟨g, hg, _⟩ => absurd hg (List.not_mem_nil)⟩
  | cons g gs ih =>
    intro h
    obtain ⟨s, hs, hs0, hs1⟩ := ih fun g' hg' => h g' (List.mem_cons_of_mem _ hg')
    rw [sumOver]
    by_cases hx : g.xl = xl
    · obtain ⟨x, hfx, hx0, hx1⟩ := h g List.mem_cons_self hx
      rw [if_pos hx, hfx, hs]
      refine ⟨x + s, rfl, by linarith, ?_⟩
      rintro ⟨g', hg', hl, hp⟩
      rcases List.mem_cons.1 hg' with rfl | hg'
      · have := hx1 hp; linarith
      · have := hs1 ⟨g', hg', hl, hp⟩; linarith
    · rw [if_neg hx]
      refine ⟨s, hs, hs0, ?_⟩
      rintro ⟨g', hg', hl, hp⟩
      rcases List.mem_cons.1 hg' with rfl | hg'
      · exact absurd hl hx
      · exact hs1 ⟨g', hg', hl, hp⟩

theorem lin_nonneg {f : Gdr → Res ℝ} {g : Gdr} (hg : Proper g)
    (h : ∃ c, 0 < c ∧ ∀ xl s, f ⟨xl, g.energy, g.width, s⟩ = .ok (s * c)) :
    ∃ x, f g = .ok x ∧ 0 ≤ x ∧ (0 < g.sigma → 0 < x) := by
  obtain ⟨c, hc, h⟩ := h
  exact ⟨g.sigma * c, h g.xl g.sigma, mul_nonneg hg.sigma hc.le, fun hs => mul_pos hs hc⟩

theorem transmission_of {c : Shape} {l : Nat} {eg a ex : ℝ} {xl : XL} {gs : List Gdr} {s : ℝ} {P : Prop} (he : 0 < eg)
    (h : sumOver xl (fun g => match c with
      | .SL => standard l eg g
      | .GL => generalized l eg g a ex) gs = .ok s) (h0 : 0 ≤ s) (h1 : P → 0 < s) :
    ∃ t, transmission c l eg xl a ex gs = .ok t ∧ 0 ≤ t ∧ (P → 0 < t) := by
  have hk : 0 < 2 * π * eg ^ (2 * l + 1) * (314035 / 100000) := by
    have := pi_pos
    positivity
  refine ⟨s * (2 * π * eg ^ (2 * l + 1) * (314035 / 100000)), ?_, mul_nonneg h0 hk.le, fun hp => mul_pos (h1 hp) hk⟩
  unfold transmission
  erw [h]
  rfl

theorem standard_nonneg {l : Nat} {eg a ex : ℝ} {xl : XL} {gs : List Gdr} (he : 0 < eg) (hg : ∀ g ∈ gs, Proper g) :
    ∃ t, transmission .SL l eg xl a ex gs = .ok t ∧ 0 ≤ t ∧ ((∃ g ∈ gs, g.xl = xl ∧ 0 < g.sigma) → 0 < t) := by
  obtain ⟨s, hs, h0, h1⟩ := sumOver_nonneg (xl := xl) (f := fun g => standard l eg g) gs
    fun g hgg _ => lin_nonneg (f := fun g => standard l eg g) (hg g hgg) (standard_lin l he (hg g hgg).width)
  exact transmission_of he hs h0 h1

theorem generalized_nonneg {l : Nat} {eg a ex : ℝ} {xl : XL} {gs : List Gdr} (he : 0 < eg) (ha : 0 < a)
    (hg : ∀ g ∈ gs, Proper g) :
    ∃ t, transmission .GL l eg xl a ex gs = .ok t ∧ 0 ≤ t ∧ ((∃ g ∈ gs, g.xl = xl ∧ 0 < g.sigma) → 0 < t) := by
  obtain ⟨s, hs, h0, h1⟩ := sumOver_nonneg (xl := xl) (f := fun g => generalized l eg g a ex) gs
    fun g hgg _ => lin_nonneg (f := fun g => generalized l eg g a ex) (hg g hgg)
      (generalized_lin l he ha (hg g hgg).energy (hg g hgg).width)
  exact transmission_of he hs h0 h1

end CGMF.Gam

namespace CGMF.Gam

open Real

theorem sumOver_eq {xl : XL} {f : Gdr → Res ℝ} {v : Gdr → ℝ} : ∀ gs : List Gdr,
    (∀ g ∈ gs, g.xl = xl → f g = .ok (v g)) →
    sumOver xl f gs = .ok ((gs.filter fun g => decide (g.xl = xl)).map v).sum := by
  intro gs
  induction gs with
  | nil => exact fun _ => rfl
  | cons g gs ih =>
    intro h
    have ih := ih fun g' hg' => h g' (List.mem_cons_of_mem _ hg')
    rw [sumOver]
    by_cases hx : g.xl = xl
    · rw [if_pos hx, h g List.mem_cons_self hx, ih, List.filter_cons_of_pos (by simpa using hx)]
      rfl
    · rw [if_neg hx, ih, List.filter_cons_of_neg (by simpa using hx)]

theorem profile_eq {eg er w : ℝ} (he : eg ≠ 0) (hw : 0 < w) :
    profile eg er w = .ok (eg * w / ((eg ^ 2 - er ^ 2) ^ 2 + eg ^ 2 * w ^ 2)) := by
  have hd : 0 < (er * er - eg * eg) * (er * er - eg * eg) + eg * eg * w * w := by
    have := mul_self_nonneg (er * er - eg * eg)
    have h2 : 0 < eg * eg := mul_self_pos.2 he
    positivity
  unfold profile
  rw [if_neg (by push Not; intro _; exact mul_ne_zero he hw.ne')]
  dsimp only
  rw [if_neg hd.ne']
  congr 2
  ring

/-- The three resonances of a nucleus taken as spherical, or the four of a deformed one. -/
theorem m1norm_ok {mass a : ℝ} {es : List Gdr} {g e : Gdr} (hm : 0 < mass) (ha : 0 < a)
    (hes : ∀ x ∈ es, x.xl = .E1 ∧ Proper x) (hne : ∃ x ∈ es, 0 < x.sigma) (hg : g.xl = .M1) (hgw : 0 < g.width)
    (hgs : g.sigma = 1) (he : e.xl = .E2) :
    ∃ s fe fm, 0 < s ∧ 0 < fe ∧ m1norm mass a (es ++ [g, e]) = .ok (es ++ [{ g with sigma := s }, e]) ∧
      sumOver .E1 (fun g => generalized 1 7 g a 0) (es ++ [{ g with sigma := s }, e]) = .ok fe ∧
      sumOver .M1 (fun g => standard 1 7 g) (es ++ [{ g with sigma := s }, e]) = .ok fm ∧
      fm = 1701 / 100 * mass ^ (-(878 / 1000) : ℝ) * fe := by
  have happ : ∀ (xl : XL) (f : Gdr → Res ℝ) (r : List Gdr), (∀ x ∈ r, x.xl ≠ xl) →
      ∀ l : List Gdr, sumOver xl f (l ++ r) = sumOver xl f l := by
    intro xl f r hr l
    induction l with
    | nil =>
      induction r with
      | nil => rfl
      | cons x r ih =>
        have ih := ih fun y hy => hr y (List.mem_cons_of_mem _ hy)
        rw [List.nil_append, sumOver.eq_2, if_neg (hr x List.mem_cons_self)]
        exact ih
    | cons x l ih => rw [List.cons_append, sumOver, sumOver, ih]
  have hpre : ∀ (xl : XL) (f : Gdr → Res ℝ) (r : List Gdr) (l : List Gdr), (∀ x ∈ l, x.xl ≠ xl) →
      sumOver xl f (l ++ r) = sumOver xl f r := by
    intro xl f r l
    induction l with
    | nil => exact fun _ => rfl
    | cons x l ih =>
      intro hl
      rw [List.cons_append, sumOver, if_neg (hl x List.mem_cons_self),
        ih fun y hy => hl y (List.mem_cons_of_mem _ hy)]
  obtain ⟨fe, hfe, hfe0, hfe1⟩ := sumOver_nonneg (xl := .E1) (f := fun g => generalized 1 7 g a 0) es
    fun x hx _ => lin_nonneg (f := fun g => generalized 1 7 g a 0) (hes x hx).2
      (generalized_lin 1 (by norm_num) ha (hes x hx).2.energy (hes x hx).2.width)
  have hfep : 0 < fe := by
    obtain ⟨x, hx, hs⟩ := hne
    exact hfe1 ⟨x, hx, (hes x hx).1, hs⟩
  obtain ⟨c, hc, hst⟩ := standard_lin 1 (eg := 7) (by norm_num) (e := g.energy) hgw
  have hsg : standard 1 7 g = .ok (g.sigma * c) := hst g.xl g.sigma
  have hE : ∀ s : ℝ, sumOver .E1 (fun g => generalized 1 7 g a 0) (es ++ [{ g with sigma := s }, e]) = .ok fe := by
    intro s
    rw [happ .E1 _ _ (by simp [hg, he]) es]
    exact hfe
  have hmp : 0 < mass ^ (-(878 / 1000) : ℝ) := rpow_pos_of_pos hm _
  have hgc : 0 < g.sigma * c := by rw [hgs, one_mul]; exact hc
  have hmod : ∀ (f : Gdr → Gdr) (l : List Gdr), (l ++ [g, e]).modify l.length f = l ++ [f g, e] := by
    intro f l
    induction l with
    | nil => rfl
    | cons x l ih => simpa [List.modify_succ_cons] using ih
  have hfind : (es ++ [g, e]).find? (fun g => decide (g.xl = .M1)) = some g := by
    rw [List.find?_append, List.find?_eq_none.2 (by intro x hx; simp [(hes x hx).1])]
    simp [hg]
  have hidx : m1Index (es ++ [g, e]) = es.length := by
    unfold m1Index
    rw [List.findIdx?_append, List.findIdx?_eq_none_iff.2 (by intro x hx; simp [(hes x hx).1])]
    simp [hg, List.findIdx?_cons]
  refine ⟨1701 / 100 * mass ^ (-(878 / 1000) : ℝ) * fe / (g.sigma * c), fe,
    1701 / 100 * mass ^ (-(878 / 1000) : ℝ) * fe / (g.sigma * c) * c, by positivity, hfep, ?_, hE _, ?_, ?_⟩
  · unfold m1norm
    have h0 := hE g.sigma
    have hgg : ({ g with sigma := g.sigma } : Gdr) = g := rfl
    rw [hgg] at h0
    rw [h0]
    simp only [Res.bind]
    rw [hfind]
    simp only [hsg]
    rw [if_neg hgc.ne', hidx, hmod]
  · rw [hpre .M1 _ _ _ (by intro x hx; simp [(hes x hx).1])]
    have := hst g.xl (1701 / 100 * mass ^ (-(878 / 1000) : ℝ) * fe / (g.sigma * c))
    simp [sumOver, hg, he, Res.bind]
    rw [hg] at this
    rw [this]
  · rw [hgs, one_mul]
    field_simp

end CGMF.Gam

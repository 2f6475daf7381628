import Verif.Model.Fragments
import Verif.Proofs.Yields
import Verif.Proofs.Sound
import Verif.Tactics

/-!
# Lemmas about the sampling of fragments
-/

namespace CGMF.Frag

open CGMF CGMF.Pre CGMF.Yld

set_option linter.unusedSectionVars false

variable {K : Type} [Field K] [LinearOrder K] [IsStrictOrderedRing K] [FloorRing K]

/-! ## Rejection loops -/

theorem pickZ_ok (t : Tab K) (iA : Int) (mz : K) : ∀ (N : Nat) (s s' : List K) (iZ : Int), s.length ≤ N →
    pickZ t iA mz s = .ok (iZ, s') → ∃ (pre : List K) (r1 r2 v : K), s = pre ++ r1 :: r2 :: s' ∧ iZ = chargeOf t r1 ∧
      readAt2 t.yza (iZ + t.dZ) iA = .ok v ∧ r2 * mz ≤ v := by
  intro N
  induction N with
  | zero =>
      intro s s' iZ hs h
      have : s = [] := List.length_eq_zero_iff.mp (by omega)
      subst this
      simp [pickZ] at h
  | succ N ih =>
      intro s s' iZ hs h
      match s, hs, h with
      | [], _, h => simp [pickZ] at h
      | [_], _, h => simp [pickZ] at h
      | r1 :: r2 :: s, hs, h =>
          rw [pickZ] at h
          generalize hc : readAt2 t.yza (chargeOf t r1 + t.dZ) iA = o at h
          rcases o with v | _ | _
          · simp only [] at h
            by_cases hv : v < r2 * mz
            · rw [if_pos hv] at h
              obtain ⟨pre, a1, a2, w, e1, e2, e3, e4⟩ := ih s s' iZ (by simp at hs; omega) h
              exact ⟨r1 :: r2 :: pre, a1, a2, w, by rw [e1]; rfl, e2, e3, e4⟩
            · rw [if_neg hv] at h
              simp only [Out.ok.injEq, Prod.mk.injEq] at h
              obtain ⟨rfl, rfl⟩ := h
              exact ⟨[], r1, r2, v, rfl, rfl, hc, not_lt.mp hv⟩
          · simp at h
          · simp at h

theorem withZ_ok {t : Tab K} {iA : Int} {s s' : List K} {q : Int × Int} (h : withZ t iA s = .ok (q, s')) :
    ∃ mz iZ, readAt t.mz iA = .ok mz ∧ q = (iA, iZ) ∧ pickZ t iA mz s = .ok (iZ, s') := by
  unfold withZ at h
  rw [Rnd.bind_ok] at h
  obtain ⟨mz, s1, h1, h⟩ := h
  rw [Rnd.lift_ok] at h1
  obtain ⟨h1, rfl⟩ := h1
  rw [Rnd.bind_ok] at h
  obtain ⟨iZ, s2, h2, h⟩ := h
  rw [Rnd.pure_ok] at h
  obtain ⟨rfl, rfl⟩ := h
  exact ⟨mz, iZ, h1, rfl, h2⟩

theorem pickAZ_ok (t : Tab K) : ∀ (N : Nat) (s s' : List K) (q : Int × Int), s.length ≤ N →
    pickAZ t s = .ok (q, s') → ∃ (pre s1 : List K) (r1 r2 v : K), s = pre ++ r1 :: r2 :: s1 ∧ q.1 = massOf t r1 ∧
      readAt t.ya q.1 = .ok v ∧ r2 * t.maxA ≤ v ∧ withZ t q.1 s1 = .ok (q, s') := by
  intro N
  induction N with
  | zero =>
      intro s s' iZ hs h
      have : s = [] := List.length_eq_zero_iff.mp (by omega)
      subst this
      simp [pickAZ] at h
  | succ N ih =>
      intro s s' q hs h
      match s, hs, h with
      | [], _, h => simp [pickAZ] at h
      | [_], _, h => simp [pickAZ] at h
      | r1 :: r2 :: s, hs, h =>
          rw [pickAZ] at h
          generalize hc : readAt t.ya (massOf t r1) = o at h
          rcases o with v | _ | _
          · simp only [] at h
            by_cases hv : r2 * t.maxA ≤ v
            · rw [if_pos hv] at h
              obtain ⟨mz, iZ, _, hq, _⟩ := withZ_ok h
              have : q.1 = massOf t r1 := by rw [hq]
              exact ⟨[], s, r1, r2, v, rfl, this, by rw [this]; exact hc, hv, by rw [this]; exact h⟩
            · rw [if_neg hv] at h
              obtain ⟨pre, s1, a1, a2, w, e1, e2, e3, e4, e5⟩ := ih s s' q (by simp at hs; omega) h
              exact ⟨r1 :: r2 :: pre, s1, a1, a2, w, by rw [e1]; rfl, e2, e3, e4, e5⟩
          · simp at h
          · simp at h

/-- The tables cover the mass range and the charges within `dZ`. -/
structure Covers (t : Tab K) : Prop where
  lo : 0 ≤ t.amin
  range : t.amin ≤ t.amax
  dz : 0 ≤ t.dZ
  ya : t.amax < t.ya.length
  mz : t.amax < t.mz.length
  z0 : t.amax < t.z0.length
  rows : 2 * t.dZ < t.yza.length
  cols : ∀ r ∈ t.yza, t.amax < r.length

theorem massOf_range (t : Tab K) (h : t.amin ≤ t.amax) {r : K} (h0 : 0 ≤ r) (h1 : r < 1) :
    t.amin ≤ massOf t r ∧ massOf t r ≤ t.amax := by
  unfold massOf
  rw [Int.floor_add_intCast]
  obtain ⟨a, b⟩ := floor_unit h0 h1 (n := t.amax - t.amin + 1) (by omega)
  constructor <;> omega

theorem chargeOf_range (t : Tab K) (h : 0 ≤ t.dZ) {r : K} (h0 : 0 ≤ r) (h1 : r < 1) :
    -t.dZ ≤ chargeOf t r ∧ chargeOf t r ≤ t.dZ := by
  unfold chargeOf
  rw [Int.floor_add_intCast]
  obtain ⟨a, b⟩ := floor_unit h0 h1 (n := t.dZ - (-t.dZ) + 1) (by omega)
  constructor <;> omega

theorem readAt2_run {t : List (List K)} {i j : Int} (hi0 : 0 ≤ i) (hi : i < t.length) (hj0 : 0 ≤ j)
    (hc : ∀ r ∈ t, j < r.length) : ∃ v, readAt2 t i j = .ok v := by
  have h1 : readAt t i = .ok t[i.toNat] := readAt_ok_iff.mpr ⟨hi0, List.getElem?_eq_getElem (by omega)⟩
  have h2 := hc t[i.toNat] (List.getElem_mem _)
  refine ⟨t[i.toNat][j.toNat], ?_⟩
  unfold readAt2
  rw [h1]
  simp only [Res.bind]
  exact readAt_ok_iff.mpr ⟨hj0, List.getElem?_eq_getElem (by omega)⟩

theorem pickZ_sound (t : Tab K) (hc : Covers t) (iA : Int) (h1 : t.amin ≤ iA) (h2 : iA ≤ t.amax) (mz : K) :
    Sound (pickZ t iA mz) (fun z => -t.dZ ≤ z ∧ z ≤ t.dZ) := by
  intro s hs
  have key : ∀ (N : Nat) (s : List K), s.length ≤ N → Unit01 s → pickZ t iA mz s ≠ .ub := by
    intro N
    induction N with
    | zero =>
        intro s hl _
        have : s = [] := List.length_eq_zero_iff.mp (by omega)
        subst this
        simp [pickZ]
    | succ N ih =>
        intro s hl hs
        match s, hl, hs with
        | [], _, _ => simp [pickZ]
        | [_], _, _ => simp [pickZ]
        | r1 :: r2 :: s, hl, hs =>
            have ⟨u1, hs1⟩ := hs.cons
            have ⟨_, hs2⟩ := hs1.cons
            obtain ⟨z1, z2⟩ := chargeOf_range t hc.dz u1.1 u1.2
            obtain ⟨v, hv⟩ := readAt2_run (t := t.yza) (i := chargeOf t r1 + t.dZ) (j := iA) (by omega)
              (by have := hc.rows; omega) (by have := hc.lo; omega) (fun r hr => by have := hc.cols r hr; omega)
            rw [pickZ, hv]
            simp only []
            by_cases hlt : v < r2 * mz
            · rw [if_pos hlt]; exact ih s (by simp at hl; omega) hs2
            · rw [if_neg hlt]; simp
  refine ⟨key s.length s le_rfl hs, ?_⟩
  intro z s' h
  obtain ⟨pre, r1, r2, v, e1, e2, _, _⟩ := pickZ_ok t iA mz s.length s s' z le_rfl h
  have u1 := hs r1 (by rw [e1]; simp)
  refine ⟨by rw [e2]; exact chargeOf_range t hc.dz u1.1 u1.2, ?_⟩
  intro r hr
  exact hs r (by rw [e1]; simp [hr])

theorem pickAZ_sound (t : Tab K) (hc : Covers t) :
    Sound (pickAZ t) (fun q => (t.amin ≤ q.1 ∧ q.1 ≤ t.amax) ∧ -t.dZ ≤ q.2 ∧ q.2 ≤ t.dZ) := by
  have hw : ∀ iA, t.amin ≤ iA → iA ≤ t.amax → Sound (withZ t iA)
      (fun q => (t.amin ≤ q.1 ∧ q.1 ≤ t.amax) ∧ -t.dZ ≤ q.2 ∧ q.2 ≤ t.dZ) := by
    intro iA h1 h2 s hs
    have hm : readAt t.mz iA = .ok (t.mz[iA.toNat]'(by have := hc.mz; have := hc.lo; omega)) :=
      readAt_ok_iff.mpr ⟨by have := hc.lo; omega, List.getElem?_eq_getElem _⟩
    obtain ⟨a, b⟩ := pickZ_sound t hc iA h1 h2 (t.mz[iA.toNat]'(by have := hc.mz; have := hc.lo; omega)) s hs
    constructor
    · intro hu
      apply a
      unfold withZ at hu
      rw [Rnd.bind_of_ok (Rnd.lift_ok.mpr ⟨hm, rfl⟩), Rnd.bind_run] at hu
      generalize hq : pickZ t iA _ s = o at hu ⊢
      rcases o with ⟨z, s'⟩ | _ | _ | _ <;> simp_all
    · intro q s' h
      obtain ⟨mz, iZ, e1, rfl, e3⟩ := withZ_ok h
      rw [hm] at e1
      simp only [Res.ok.injEq] at e1
      rw [← e1] at e3
      obtain ⟨c, d⟩ := b iZ s' e3
      exact ⟨⟨⟨h1, h2⟩, c⟩, d⟩
  have key : ∀ (N : Nat) (s : List K), s.length ≤ N → Unit01 s → pickAZ t s ≠ .ub ∧
      ∀ q s', pickAZ t s = .ok (q, s') →
        ((t.amin ≤ q.1 ∧ q.1 ≤ t.amax) ∧ -t.dZ ≤ q.2 ∧ q.2 ≤ t.dZ) ∧ Unit01 s' := by
    intro N
    induction N with
    | zero =>
        intro s hl _
        have : s = [] := List.length_eq_zero_iff.mp (by omega)
        subst this
        simp [pickAZ]
    | succ N ih =>
        intro s hl hs
        match s, hl, hs with
        | [], _, _ => simp [pickAZ]
        | [_], _, _ => simp [pickAZ]
        | r1 :: r2 :: s, hl, hs =>
            have ⟨u1, hs1⟩ := hs.cons
            have ⟨_, hs2⟩ := hs1.cons
            obtain ⟨z1, z2⟩ := massOf_range t hc.range u1.1 u1.2
            have hv : readAt t.ya (massOf t r1) = .ok (t.ya[(massOf t r1).toNat]'(by have := hc.ya; have := hc.lo; omega)) :=
              readAt_ok_iff.mpr ⟨by have := hc.lo; omega, List.getElem?_eq_getElem _⟩
            rw [pickAZ, hv]
            simp only []
            by_cases hlt : r2 * t.maxA ≤ (t.ya[(massOf t r1).toNat]'(by have := hc.ya; have := hc.lo; omega))
            · rw [if_pos hlt]; exact hw _ z1 z2 s hs2
            · rw [if_neg hlt]; exact ih s (by simp at hl; omega) hs2
  exact fun s hs => key s.length s le_rfl hs

/-! ## Sharing -/

theorem shareLoop_ok (ldpl ldph : K → Res K) (rt txe tol : K) : ∀ (fuel : Nat) (al ah : K) (u : K × K),
    shareLoop ldpl ldph rt txe tol fuel al ah = .ok u →
    ∃ a b a' : K, a * rt * rt + b ≠ 0 ∧ u.2 = b / (a * rt * rt + b) * txe ∧ u.1 = txe - u.2 ∧
      ldpl u.1 = .ok a' ∧ |a' - a| ≤ tol ∧ (∃ b', ldph u.2 = .ok b') ∧
      ((a = al ∧ b = ah) ∨ ∃ x y, ldpl x = .ok a ∧ ldph y = .ok b) := by
  intro fuel
  induction fuel with
  | zero => intro al ah u h; simp [shareLoop] at h
  | succ fuel ih =>
      intro al ah u h
      rw [shareLoop] at h
      by_cases hd : al * rt * rt + ah = 0
      · rw [if_pos hd] at h; simp at h
      · rw [if_neg hd] at h
        simp only [] at h
        generalize hl : ldpl (txe - ah / (al * rt * rt + ah) * txe) = o1 at h
        generalize hh : ldph (ah / (al * rt * rt + ah) * txe) = o2 at h
        rcases o1 with a' | _ | _ <;> rcases o2 with b' | _ | _ <;> simp only [reduceCtorEq] at h
        by_cases ht : tol < |a' - al|
        · rw [if_pos ht] at h
          obtain ⟨a, b, c, e1, e2, e3, e4, e5, e6, e7⟩ := ih a' b' u h
          refine ⟨a, b, c, e1, e2, e3, e4, e5, e6, Or.inr ?_⟩
          rcases e7 with ⟨rfl, rfl⟩ | e7
          · exact ⟨_, _, hl, hh⟩
          · exact e7
        · rw [if_neg ht] at h
          simp only [Out.ok.injEq] at h
          subst h
          exact ⟨al, ah, a', hd, rfl, rfl, hl, not_lt.mp ht, ⟨b', hh⟩, Or.inl ⟨rfl, rfl⟩⟩

theorem shareRT_ok {ldpl ldph : K → Res K} {rt txe tol : K} {fuel : Nat} {u : K × K}
    (h : shareRT ldpl ldph rt txe tol fuel = .ok u) :
    ∃ a b a' x y : K, a * rt * rt + b ≠ 0 ∧ u.2 = b / (a * rt * rt + b) * txe ∧ u.1 = txe - u.2 ∧
      ldpl u.1 = .ok a' ∧ |a' - a| ≤ tol ∧ ldpl x = .ok a ∧ ldph y = .ok b := by
  unfold shareRT at h
  generalize hl : ldpl (txe / 2) = o1 at h
  generalize hh : ldph (txe / 2) = o2 at h
  rcases o1 with a0 | _ | _ <;> rcases o2 with b0 | _ | _ <;> simp only [reduceCtorEq] at h
  obtain ⟨a, b, c, e1, e2, e3, e4, e5, _, e7⟩ := shareLoop_ok ldpl ldph rt txe tol fuel a0 b0 u h
  rcases e7 with ⟨rfl, rfl⟩ | ⟨x, y, e8, e9⟩
  · exact ⟨a, b, c, _, _, e1, e2, e3, e4, e5, hl, hh⟩
  · exact ⟨a, b, c, x, y, e1, e2, e3, e4, e5, e8, e9⟩

/-! ## Events -/

theorem liftOut_ok {α : Type} {x : Out α} {s s' : List K} {a : α} (h : liftOut x s = .ok (a, s')) :
    x = .ok a ∧ s = s' := by
  unfold liftOut at h
  rcases x with b | _ | _ | _ <;> simp_all

theorem assign_sum (ac zc iA iZ zp : Int) :
    (assign ac zc iA iZ zp).al + (assign ac zc iA iZ zp).ah = ac ∧
    (assign ac zc iA iZ zp).zl + (assign ac zc iA iZ zp).zh = zc ∧
    (assign ac zc iA iZ zp).al ≤ (assign ac zc iA iZ zp).ah := by
  unfold assign
  split <;> refine ⟨?_, ?_, ?_⟩ <;> simp only [] <;> omega

theorem pair_ok {t : Tab K} {ac zc : Int} {s s' : List K} {p : Pair} (h : pair t ac zc s = .ok (p, s')) :
    ∃ (iA iZ : Int) (z : K), pickAZ t s = .ok ((iA, iZ), s') ∧ readAt t.z0 iA = .ok z ∧
      p = assign ac zc iA iZ ⌊z + 1 / 2⌋ := by
  unfold pair at h
  rw [Rnd.bind_ok] at h
  obtain ⟨q, s1, h1, h⟩ := h
  rw [Rnd.bind_ok] at h
  obtain ⟨z, s2, h2, h⟩ := h
  rw [Rnd.lift_ok] at h2
  obtain ⟨h2, rfl⟩ := h2
  rw [Rnd.pure_ok] at h
  obtain ⟨rfl, rfl⟩ := h
  exact ⟨q.1, q.2, z, h1, h2, rfl⟩

variable {M : Type}

theorem excite_ok {v : Env K M} {fuel : Nat} {p : Pair} {txe q : K} {s s' : List K} {x : Exc K}
    (h : excite v fuel p txe q s = .ok (x, s')) :
    (txe < 0 ∧ x = ⟨0, 0, none, q⟩) ∨
      (0 ≤ txe ∧ share v.ldp v.tol v.opt fuel p txe = .ok (x.ul, x.uh) ∧ x.spins.isSome ∧ x.q = q) := by
  unfold excite at h
  by_cases ht : txe < 0
  · rw [if_pos ht, Rnd.pure_ok] at h
    exact Or.inl ⟨ht, h.1.symm⟩
  · rw [if_neg ht] at h
    right
    rw [Rnd.bind_ok] at h; obtain ⟨u, s1, h1, h⟩ := h
    rw [Rnd.bind_ok] at h; obtain ⟨bl, s2, h2, h⟩ := h
    rw [Rnd.bind_ok] at h; obtain ⟨jl, s3, h3, h⟩ := h
    rw [Rnd.bind_ok] at h; obtain ⟨bh, s4, h4, h⟩ := h
    rw [Rnd.bind_ok] at h; obtain ⟨jh, s5, h5, h⟩ := h
    rw [Rnd.bind_ok] at h; obtain ⟨pl, s6, h6, h⟩ := h
    rw [Rnd.bind_ok] at h; obtain ⟨ph, s7, h7, h⟩ := h
    rw [Rnd.pure_ok] at h
    obtain ⟨rfl, rfl⟩ := h
    exact ⟨not_lt.mp ht, (liftOut_ok h1).1, rfl, rfl⟩

theorem initial_ok {v : Env K M} {fuel : Nat} {a0 : Int} {c : Comp K} {p : Pair} {tke : K} {s s' : List K}
    {x : Exc K × M} (h : initial v fuel a0 c p tke s = .ok (x, s')) :
    ∃ (ml mh : K) (s1 s2 : List K), v.mass (1000 * p.zl + p.al) = .ok ml ∧ v.mass (1000 * p.zh + p.ah) = .ok mh ∧
      excite v fuel p (c.mx - ml - mh + (c.einc + c.sn) - tke) (c.mx - ml - mh) s1 = .ok (x.1, s2) := by
  unfold initial at h
  rw [Rnd.bind_ok] at h; obtain ⟨ml, s1, h1, h⟩ := h
  rw [Rnd.bind_ok] at h; obtain ⟨mh, s2, h2, h⟩ := h
  rw [Rnd.bind_ok] at h; obtain ⟨y, s3, h3, h⟩ := h
  rw [Rnd.bind_ok] at h; obtain ⟨m, s4, h4, h⟩ := h
  rw [Rnd.pure_ok] at h
  obtain ⟨rfl, rfl⟩ := h
  exact ⟨ml, mh, _, _, (Rnd.lift_ok.mp h1).1, (Rnd.lift_ok.mp h2).1, h3⟩

theorem tkeLoop_ok {v : Env K M} {fuel : Nat} {a0 : Int} {c : Comp K} {p : Pair} : ∀ (n : Nat) {s s' : List K}
    {r : K × Exc K × M}, tkeLoop v fuel a0 c p n s = .ok (r, s') →
    (∃ s1 s2 : List K, initial v fuel a0 c p r.1 s1 = .ok (r.2, s2)) ∧ ¬(r.2.1.ul = 0 ∧ r.2.1.uh = 0) := by
  intro n
  induction n with
  | zero => intro s s' r h; simp [tkeLoop] at h
  | succ n ih =>
      intro s s' r h
      rw [tkeLoop] at h
      rw [Rnd.bind_ok] at h; obtain ⟨t, s1, h1, h⟩ := h
      rw [Rnd.bind_ok] at h; obtain ⟨x, s2, h2, h⟩ := h
      by_cases hx : x.1.ul = 0 ∧ x.1.uh = 0
      · rw [if_pos hx] at h; exact ih h
      · rw [if_neg hx, Rnd.pure_ok] at h
        obtain ⟨rfl, rfl⟩ := h
        exact ⟨⟨_, _, h2⟩, hx⟩

theorem sample_ok {v : Env K M} {amu : K} {t : Tab K} {fuel : Nat} {a0 : Int} {c : Comp K} {s s' : List K}
    {f : Frags K M} (h : sample v amu t fuel a0 c s = .ok (f, s')) :
    (∃ s1 s2 : List K, pair t c.ac c.zc s1 = .ok (f.p, s2)) ∧
    (∃ s1 s2 : List K, initial v fuel a0 c f.p f.tke s1 = .ok ((f.x, f.mom), s2)) ∧
    ¬(f.x.ul = 0 ∧ f.x.uh = 0) ∧
    ∃ ml mh : K, v.mtab f.p.zl f.p.al = .ok ml ∧ v.mtab f.p.zh f.p.ah = .ok mh ∧
      (f.kel, f.keh) = kinetic amu f.tke f.p ml mh := by
  unfold sample at h
  rw [Rnd.bind_ok] at h; obtain ⟨p, s1, h1, h⟩ := h
  rw [Rnd.bind_ok] at h; obtain ⟨r, s2, h2, h⟩ := h
  rw [Rnd.bind_ok] at h; obtain ⟨ml, s3, h3, h⟩ := h
  rw [Rnd.bind_ok] at h; obtain ⟨mh, s4, h4, h⟩ := h
  rw [Rnd.pure_ok] at h
  obtain ⟨rfl, rfl⟩ := h
  obtain ⟨h5, h6⟩ := tkeLoop_ok fuel h2
  exact ⟨⟨_, _, h1⟩, h5, h6, ml, mh, (Rnd.lift_ok.mp h3).1, (Rnd.lift_ok.mp h4).1, rfl⟩

theorem event_ok {amu : K} {con : Rnd K (Comp K × Tab K × Env K M)} {fuel : Nat} {a0 : Int} : ∀ (n : Nat)
    {s s' : List K} {e : Comp K × Frags K M}, event amu con fuel a0 n s = .ok (e, s') →
    ∃ (t : Tab K) (v : Env K M), (∃ s1 s2 : List K, con s1 = .ok ((e.1, t, v), s2)) ∧
      (∃ s1 s2 : List K, sample v amu t fuel a0 e.1 s1 = .ok (e.2, s2)) ∧ e.2.x.ul ≠ 0 ∧ e.2.x.uh ≠ 0 := by
  intro n
  induction n with
  | zero => intro s s' e h; simp [event] at h
  | succ n ih =>
      intro s s' e h
      rw [event] at h
      rw [Rnd.bind_ok] at h; obtain ⟨y, s1, h1, h⟩ := h
      rw [Rnd.bind_ok] at h; obtain ⟨f, s2, h2, h⟩ := h
      by_cases hx : f.x.ul ≠ 0 ∧ f.x.uh ≠ 0
      · rw [if_pos hx, Rnd.pure_ok] at h
        obtain ⟨rfl, rfl⟩ := h
        exact ⟨y.2.1, y.2.2, ⟨_, _, h1⟩, ⟨_, _, h2⟩, hx.1, hx.2⟩
      · rw [if_neg hx] at h; exact ih h

theorem generate_ok {amu : K} {con : Rnd K (Comp K × Tab K × Env K M)} {fuel : Nat} {a0 : Int} : ∀ (n : Nat)
    {s s' : List K} {es : List (Comp K × Frags K M)}, generate amu con fuel a0 n s = .ok (es, s') →
    es.length = n ∧ ∀ e ∈ es, ∃ s1 s2 : List K, event amu con fuel a0 fuel s1 = .ok (e, s2) := by
  intro n
  induction n with
  | zero =>
      intro s s' es h
      rw [generate, Rnd.pure_ok] at h
      obtain ⟨rfl, _⟩ := h
      simp
  | succ n ih =>
      intro s s' es h
      rw [generate] at h
      rw [Rnd.bind_ok] at h; obtain ⟨e, s1, h1, h⟩ := h
      rw [Rnd.bind_ok] at h; obtain ⟨es', s2, h2, h⟩ := h
      rw [Rnd.pure_ok] at h
      obtain ⟨rfl, rfl⟩ := h
      obtain ⟨a, b⟩ := ih h2
      refine ⟨by simp [a], ?_⟩
      intro d hd
      rcases List.mem_cons.mp hd with rfl | hd
      · exact ⟨_, _, h1⟩
      · exact b d hd

end CGMF.Frag

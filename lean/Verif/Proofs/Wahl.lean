import Verif.Spec.Wahl
import Verif.Proofs.Yields
import Verif.Tactics

/-!
# Lemmas about the charge model
-/

namespace CGMF.Wahl

open CGMF CGMF.Spec CGMF.Yld

set_option linter.unusedSectionVars false

variable {K : Type} [Field K] [LinearOrder K] [IsStrictOrderedRing K] [FloorRing K]

theorem put_ok {s s' : List (Ent K)} {A : Int} {o : Option (Ent K)} (h : put s A o = .ok s') :
    s'.length = s.length ∧ (∀ k : Nat, (k : Int) ≠ A → s'[k]? = s[k]?) ∧
      (∀ e, o = some e → 0 ≤ A ∧ s'[A.toNat]? = some e) ∧ (o = none → s' = s) := by
  cases o with
  | none =>
      simp only [put, Res.ok.injEq] at h
      subst h
      refine ⟨rfl, fun _ _ => rfl, ?_, fun _ => rfl⟩
      intro e he
      cases he
  | some e =>
      simp only [put] at h
      rw [writeAt_ok_iff] at h
      obtain ⟨h0, h1, rfl⟩ := h
      refine ⟨by simp, ?_, ?_, fun h => by cases h⟩
      · intro k hk
        rw [List.getElem?_set_ne (by omega)]
      · intro e' he'
        cases he'
        exact ⟨h0, by simp [h1]⟩

theorem put_run (s : List (Ent K)) (A : Int) (o : Option (Ent K)) (h0 : 0 ≤ A) (h1 : A.toNat < s.length) :
    ∃ s', put s A o = .ok s' := by
  cases o with
  | none => exact ⟨s, rfl⟩
  | some e => exact ⟨_, writeAt_ok_iff.mpr ⟨h0, h1, rfl⟩⟩

/-- What one pass over mass `A` does to the entry of `A`. -/
theorem region_ok {old : List (Ent K) → Int → Res (Option (Ent K))} {new : Int → Res (Option (Ent K))}
    {s s' : List (Ent K)} {A : Int} (h : region old new s A = .ok s') :
    s'.length = s.length ∧ (∀ k : Nat, (k : Int) ≠ A → s'[k]? = s[k]?) ∧
      ∃ o n, old s A = .ok o ∧ new A = .ok n ∧ (∀ e, n = some e → s'[A.toNat]? = some e) ∧
        (n = none → o = none → s' = s) := by
  unfold region at h
  rw [Res.bind_iff] at h
  obtain ⟨o, ho, h⟩ := h
  rw [Res.bind_iff] at h
  obtain ⟨s1, h1, h⟩ := h
  rw [Res.bind_iff] at h
  obtain ⟨n, hn, h⟩ := h
  obtain ⟨a1, a2, a3, a4⟩ := put_ok h1
  obtain ⟨b1, b2, b3, b4⟩ := put_ok h
  refine ⟨by rw [b1, a1], fun k hk => by rw [b2 k hk, a2 k hk], o, n, ho, hn, fun e he => (b3 e he).2, ?_⟩
  intro hn' ho'
  rw [b4 hn', a4 ho']

theorem region_run (old : List (Ent K) → Int → Res (Option (Ent K))) (new : Int → Res (Option (Ent K)))
    (s : List (Ent K)) (A : Int) (h0 : 0 ≤ A) (h1 : A.toNat < s.length) (ho : ∃ o, old s A = .ok o)
    (hn : ∃ n, new A = .ok n) : ∃ s', region old new s A = .ok s' := by
  obtain ⟨o, ho⟩ := ho
  obtain ⟨n, hn⟩ := hn
  obtain ⟨s1, e1⟩ := put_run s A o h0 h1
  obtain ⟨s2, e2⟩ := put_run s1 A n h0 (by rw [(put_ok e1).1]; exact h1)
  refine ⟨s2, ?_⟩
  unfold region
  rw [ho]
  simp only [Res.bind]
  rw [e1]
  simp only []
  rw [hn]
  exact e2

/-- A loop changes the entry of each mass of its range once, when its turn comes. -/
theorem loop_ok {old : List (Ent K) → Int → Res (Option (Ent K))} {new : Int → Res (Option (Ent K))} {m : Nat}
    {lo : Int} {s s' : List (Ent K)} (h : loop (region old new) m lo s = .ok s') (h0 : 0 ≤ lo) :
    s'.length = s.length ∧ ∀ A : Nat, lo ≤ A → (A : Int) < lo + m → ∃ s1 s2, s1[A]? = s[A]? ∧
      region old new s1 A = .ok s2 ∧ s'[A]? = s2[A]? := by
  have out : ∀ (m : Nat) (lo : Int) (s s' : List (Ent K)), loop (region old new) m lo s = .ok s' →
      s'.length = s.length ∧ ∀ A : Nat, (A : Int) < lo → s'[A]? = s[A]? := by
    intro m
    induction m with
    | zero => intro lo s s' h; cases h; exact ⟨rfl, fun _ _ => rfl⟩
    | succ m ih =>
        intro lo s s' h
        simp only [loop] at h
        rw [Res.bind_iff] at h
        obtain ⟨t, ht, h⟩ := h
        obtain ⟨a1, a2, _⟩ := region_ok ht
        obtain ⟨b1, b2⟩ := ih _ _ _ h
        exact ⟨by rw [b1, a1], fun A hA => by rw [b2 A (by omega), a2 A (by omega)]⟩
  induction m generalizing lo s with
  | zero => cases h; exact ⟨rfl, fun A h1 h2 => by simp at h2; omega⟩
  | succ m ih =>
      simp only [loop] at h
      rw [Res.bind_iff] at h
      obtain ⟨t, ht, h⟩ := h
      obtain ⟨a1, a2, _⟩ := region_ok ht
      obtain ⟨b1, b2⟩ := ih h (by omega)
      obtain ⟨c1, c2⟩ := out _ _ _ _ h
      refine ⟨by rw [b1, a1], ?_⟩
      intro A hA hA'
      by_cases e : (A : Int) = lo
      · exact ⟨s, t, rfl, by rw [e]; exact ht, c2 A (by omega)⟩
      · obtain ⟨s1, s2, e1, e2, e3⟩ := b2 A (by omega) (by push_cast at hA' ⊢; omega)
        exact ⟨s1, s2, by rw [e1, a2 A (by omega)], e2, e3⟩

theorem loop_run (old : List (Ent K) → Int → Res (Option (Ent K))) (new : Int → Res (Option (Ent K))) (m : Nat)
    (lo : Int) (s : List (Ent K)) (h0 : 0 ≤ lo) (h1 : lo + m ≤ s.length)
    (ho : ∀ (t : List (Ent K)) (A : Int), t.length = s.length → ∃ o, old t A = .ok o)
    (hn : ∀ A, ∃ n, new A = .ok n) : ∃ s', loop (region old new) m lo s = .ok s' ∧ s'.length = s.length := by
  induction m generalizing lo s with
  | zero => exact ⟨s, rfl, rfl⟩
  | succ m ih =>
      push_cast at h1
      obtain ⟨t, ht⟩ := region_run old new s lo h0 (by omega) (ho s lo rfl) (hn lo)
      have hl := (region_ok ht).1
      obtain ⟨s', e, e'⟩ := ih (lo + 1) t (by omega) (by rw [hl]; omega) (by rw [hl]; exact ho)
      refine ⟨s', ?_, by rw [e', hl]⟩
      simp only [loop]
      rw [ht]
      exact e

/-- How the bounds of `ComputeMassBounds` are related. -/
structure Made (b : Bounds K) (af : Int) : Prop where
  e1 : b.b1 = 70
  e6 : b.b6 = (af : K) - 70
  e5 : b.b5 = (af : K) - b.b2
  e3 : b.b3 = (af : K) - b.b4
  ea : b.ba = (af : K) - b.bb
  i1 : b.i1 = 70
  i6 : b.i6 = af - 70
  i5 : b.i5 = af - b.i2
  i3 : b.i3 = af - b.i4
  i2 : b.i2 = ⌊b.b2 + 1 / 2⌋
  i4 : b.i4 = ⌊b.b4 + 1 / 2⌋
  ia : b.ia = toInt (b.ba + 1 / 2)
  ib : b.ib = toInt (b.bb + 1 / 2)

theorem bounds_made {p : Zp K} {zf af : Int} {b : Bounds K} (h : bounds p zf af = .ok b) : Made b af := by
  unfold bounds at h
  split at h
  · cases h
  · simp only [Res.ok.injEq] at h
    subst h
    constructor <;> rfl

theorem floor_le_half (x : K) : ((⌊x + 1 / 2⌋ : Int) : K) ≤ x + 1 / 2 := Int.floor_le _
theorem half_lt_floor (x : K) : x - 1 / 2 < ((⌊x + 1 / 2⌋ : Int) : K) := by
  have := Int.lt_floor_add_one (x + 1 / 2)
  linarith

/-- Comparisons of integers as numbers. -/
theorem le_cast {a b : Int} : a ≤ b ↔ (a : K) ≤ (b : K) := (Int.cast_le).symm
theorem lt_cast_succ {a b : Int} (h : a < b) : (a : K) + 1 ≤ (b : K) := by
  have : a + 1 ≤ b := by omega
  exact_mod_cast (Int.cast_le (R := K)).mpr this

theorem ba_lt {b : Bounds K} {af : Int} (hs : Sorted b) (hm : Made b af) : 2 * b.ba < (af : K) ∧ (af : K) < 2 * b.bb := by
  have := hs.hab
  have := hm.ea
  constructor <;> linarith

theorem ba_pos {b : Bounds K} {af : Int} (hs : Sorted b) (hm : Made b af) : 70 < b.ba ∧ 70 < b.bb := by
  have h1 := hs.h12; have h2 := hs.h23; have h3 := hs.h3a; have h4 := hs.hab
  have := hm.e1
  constructor <;> linarith

theorem ia_eq {b : Bounds K} {af : Int} (hs : Sorted b) (hm : Made b af) :
    b.ia = ⌊b.ba + 1 / 2⌋ ∧ b.ib = ⌊b.bb + 1 / 2⌋ := by
  obtain ⟨h1, h2⟩ := ba_pos hs hm
  rw [hm.ia, hm.ib]
  unfold toInt
  rw [if_pos (by linarith), if_pos (by linarith)]
  exact ⟨rfl, rfl⟩

theorem i2_bnd {b : Bounds K} {af : Int} (hm : Made b af) : (b.i2 : K) ≤ b.b2 + 1 / 2 ∧ b.b2 - 1 / 2 < (b.i2 : K) := by
  rw [hm.i2]; exact ⟨floor_le_half _, half_lt_floor _⟩

theorem i4_bnd {b : Bounds K} {af : Int} (hm : Made b af) : (b.i4 : K) ≤ b.b4 + 1 / 2 ∧ b.b4 - 1 / 2 < (b.i4 : K) := by
  rw [hm.i4]; exact ⟨floor_le_half _, half_lt_floor _⟩

theorem ia_bnd {b : Bounds K} {af : Int} (hs : Sorted b) (hm : Made b af) :
    (b.ia : K) ≤ b.ba + 1 / 2 ∧ b.ba - 1 / 2 < (b.ia : K) := by
  rw [(ia_eq hs hm).1]; exact ⟨floor_le_half _, half_lt_floor _⟩

theorem ib_bnd {b : Bounds K} {af : Int} (hs : Sorted b) (hm : Made b af) :
    (b.ib : K) ≤ b.bb + 1 / 2 ∧ b.bb - 1 / 2 < (b.ib : K) := by
  rw [(ia_eq hs hm).2]; exact ⟨floor_le_half _, half_lt_floor _⟩

theorem i5_cast {b : Bounds K} {af : Int} (hm : Made b af) : (b.i5 : K) = (af : K) - b.i2 := by
  rw [hm.i5]; push_cast; ring

theorem i3_cast {b : Bounds K} {af : Int} (hm : Made b af) : (b.i3 : K) = (af : K) - b.i4 := by
  rw [hm.i3]; push_cast; ring

theorem far_none {c : Cfg K} (hm : Made c.b c.af) {A : Int} (h1 : c.b.b1 < A) (h6 : (A : K) < c.b.b6)
    (s : List (Ent K)) : farOld c s A = .ok none ∧ farNew c A = none := by
  rw [hm.e1] at h1
  rw [hm.e6] at h6
  have h1' : 70 < A := by exact_mod_cast h1
  have h6' : A < c.af - 70 := by exact_mod_cast h6
  constructor
  · unfold farOld
    rw [hm.i1, hm.i6, if_neg (by omega), if_neg (by omega)]
  · unfold farNew
    simp only []
    rw [hm.e1, hm.e6, if_neg (by linarith), if_neg (by linarith)]

theorem wing_none {c : Cfg K} (hs : Sorted c.b) (hm : Made c.b c.af) {A : Int} (h2 : c.b.b2 < A) (h5 : (A : K) < c.b.b5)
    (s : List (Ent K)) : wingOld c s A = .ok none ∧ wingNew c A = none := by
  obtain ⟨a1, a2⟩ := i2_bnd hm
  have a5 := i5_cast hm
  have e5 := hm.e5
  constructor
  · unfold wingOld
    rw [if_neg, if_neg]
    · rintro ⟨x, _⟩
      have := lt_cast_succ (K := K) x
      linarith
    · rintro ⟨_, x⟩
      have := lt_cast_succ (K := K) x
      linarith
  · unfold wingNew
    simp only []
    rw [if_neg (by rintro ⟨_, x⟩; linarith), if_neg (by rintro ⟨x, _⟩; linarith)]

theorem sym_none {c : Cfg K} (hs : Sorted c.b) (hm : Made c.b c.af) {A : Int}
    (h : (A : K) < c.b.b3 ∨ c.b.b4 < (A : K)) (s : List (Ent K)) :
    symOld c s A = .ok none ∧ symNew c A = .ok none := by
  obtain ⟨a1, a2⟩ := i4_bnd hm
  obtain ⟨b1, b2⟩ := ia_bnd hs hm
  obtain ⟨c1, c2⟩ := ib_bnd hs hm
  have a3 := i3_cast hm
  have e3 := hm.e3
  obtain ⟨l1, l2⟩ := ba_lt hs hm
  have s1 := hs.h3a; have s2 := hs.hab; have s3 := hs.hb4
  constructor
  · unfold symOld
    rw [if_neg, if_neg, if_neg]
    · rintro ⟨x, y⟩
      have x' := (le_cast (K := K)).mp x
      have y' := lt_cast_succ (K := K) y
      rcases h with h | h
      · have : 2 * A < c.af := by
          have : 2 * (A : K) < c.af := by linarith
          exact_mod_cast this
        have := lt_cast_succ (K := K) this
        push_cast at this
        linarith
      · linarith
    · rintro ⟨x, y⟩
      have x' := lt_cast_succ (K := K) x
      have y' := lt_cast_succ (K := K) y
      rcases h with h | h <;> linarith
    · rintro ⟨x, y⟩
      have x' := lt_cast_succ (K := K) x
      have y' := (le_cast (K := K)).mp y
      rcases h with h | h
      · linarith
      · have : c.af < 2 * A := by
          have : (c.af : K) < 2 * (A : K) := by linarith
          exact_mod_cast this
        have := lt_cast_succ (K := K) this
        push_cast at this
        linarith
  · unfold symNew
    simp only []
    rw [if_neg, if_neg, if_neg]
    · rintro ⟨x, y⟩; rcases h with h | h <;> linarith
    · rintro ⟨x, y⟩; rcases h with h | h <;> linarith
    · rintro ⟨x, y⟩; rcases h with h | h <;> linarith

/-- The entry of a mass after the four loops. -/
theorem regions_entry {p : Zp K} {b : Bounds K} {af : Int} (hs : Sorted b) (hm : Made b af) {m : Nat} {lo : Int}
    {s s' : List (Ent K)} (h0 : 0 ≤ lo) (h : regions (config p b af) m lo s = .ok s') :
    s'.length = s.length ∧ ∀ A : Nat, lo ≤ A → (A : Int) < lo + m →
      s'[A]? = some (if ((A : Int) : K) = b.bb then
          ⟨(config p b af).p.delzmax, (config p b af).p.sigz140 - (config p b af).p.sigzSL * (140 - b.bb), 1, 1⟩
        else wahl (config p b af).p b.bb b.b4 b.b5 b.b6 af ((A : Int) : K)) := by
  have hcb : (config p b af).b = b := by unfold config; rfl
  have hca : (config p b af).af = af := by unfold config; rfl
  have hcs : (config p b af).sigzB5 = (config p b af).p.sigz140 + (config p b af).p.sigzSL * (b.b5 - 140) := by
    unfold config; rfl
  have hcd : (config p b af).delzB5 = (config p b af).p.delz140 + (config p b af).p.delzSL * (b.b5 - 140) := by
    unfold config; rfl
  generalize config p b af = c at *
  subst hcb
  subst hca
  unfold regions at h
  rw [Res.bind_iff] at h
  obtain ⟨s1, h1, h⟩ := h
  rw [Res.bind_iff] at h
  obtain ⟨s2, h2, h⟩ := h
  rw [Res.bind_iff] at h
  obtain ⟨s3, h3, h4⟩ := h
  obtain ⟨l1, p1⟩ := loop_ok h1 h0
  obtain ⟨l2, p2⟩ := loop_ok h2 h0
  obtain ⟨l3, p3⟩ := loop_ok h3 h0
  obtain ⟨l4, p4⟩ := loop_ok h4 h0
  refine ⟨by rw [l4, l3, l2, l1], ?_⟩
  intro A hA hA'
  obtain ⟨t1, u1, a1, r1, e1⟩ := p1 A hA hA'
  obtain ⟨t2, u2, a2, r2, e2⟩ := p2 A hA hA'
  obtain ⟨t3, u3, a3, r3, e3⟩ := p3 A hA hA'
  obtain ⟨t4, u4, a4, r4, e4⟩ := p4 A hA hA'
  obtain ⟨_, _, o1, n1, x1, y1, z1, _⟩ := region_ok r1
  obtain ⟨_, _, o2, n2, x2, y2, z2, w2⟩ := region_ok r2
  obtain ⟨_, _, o3, n3, x3, y3, z3, w3⟩ := region_ok r3
  obtain ⟨_, _, o4, n4, x4, y4, z4, w4⟩ := region_ok r4
  simp only [Int.toNat_natCast] at z1 z2 z3 z4
  simp only [Res.ok.injEq] at y1 y3 y4
  have hsym := ba_lt hs hm
  have q1 := hs.h12; have q2 := hs.h23; have q3 := hs.h3a; have q4 := hs.hab; have q5 := hs.hb4
  have q6 := hs.h45; have q7 := hs.h56
  have d1 := hm.e1; have d6 := hm.e6; have d5 := hm.e5; have d3 := hm.e3; have da := hm.ea
  set a : K := ((A : Int) : K) with ha
  -- far wings
  by_cases hf : a ≤ c.b.b1 ∨ c.b.b6 ≤ a
  · rw [e4, if_neg (by intro x; rcases hf with hf | hf <;> linarith)]
    rcases hf with hf | hf
    · rw [z4 _ (by rw [← y4]; unfold farNew; simp only []; rw [if_pos hf])]
      unfold wahl heavy
      rw [if_neg (by linarith), if_pos (by linarith), hcd, hcs]
    · rw [z4 _ (by rw [← y4]; unfold farNew; simp only []; rw [if_neg (by linarith), if_pos hf])]
      unfold wahl heavy
      rw [if_pos (by linarith), if_pos hf, hcd, hcs]
  push Not at hf
  obtain ⟨hf1, hf6⟩ := hf
  obtain ⟨f1, f2⟩ := far_none hm hf1 hf6 t4
  rw [f1] at x4
  simp only [Res.ok.injEq] at x4
  have k4 : s'[A]? = s3[A]? := by rw [e4, w4 (by rw [← y4]; exact f2) x4.symm, a4]
  rw [k4]
  -- wings
  by_cases hw : a ≤ c.b.b2 ∨ c.b.b5 ≤ a
  · rw [e3, if_neg (by intro x; rcases hw with hf | hf <;> linarith)]
    rcases hw with hw | hw
    · rw [z3 _ (by rw [← y3]; unfold wingNew; simp only []; rw [if_pos ⟨le_of_lt hf1, hw⟩])]
      unfold wahl heavy
      rw [if_neg (by linarith), if_neg (by linarith), if_pos (by linarith), hcd, hcs]
      rw [← ha]
      have g : c.b.b2 - a = (c.af : K) - a - c.b.b5 := by rw [d5]; ring
      rw [g]
      congr 2
      ring
    · rw [z3 _ (by rw [← y3]; unfold wingNew; simp only []; rw [if_neg (by rintro ⟨_, x⟩; linarith), if_pos ⟨hw, le_of_lt hf6⟩])]
      unfold wahl heavy
      rw [if_pos (by linarith), if_neg (by linarith), if_pos hw, hcd, hcs]
  push Not at hw
  obtain ⟨hw2, hw5⟩ := hw
  obtain ⟨f1, f2⟩ := wing_none hs hm hw2 hw5 t3
  rw [f1] at x3
  simp only [Res.ok.injEq] at x3
  have k3 : s3[A]? = s2[A]? := by rw [e3, w3 (by rw [← y3]; exact f2) x3.symm, a3]
  rw [k3]
  -- symmetry
  by_cases hy : a < c.b.b3 ∨ c.b.b4 < a
  · obtain ⟨f1, f2⟩ := sym_none hs hm hy t2
    rw [f1] at x2
    rw [f2] at y2
    simp only [Res.ok.injEq] at x2 y2
    have k2 : s2[A]? = s1[A]? := by rw [e2, w2 y2.symm x2.symm, a2]
    rw [k2, e1, if_neg (by intro x; rcases hy with hf | hf <;> linarith)]
    rcases hy with hy | hy
    · rw [z1 _ (by rw [← y1]; unfold peakNew; simp only []; rw [if_pos ⟨le_of_lt hw2, le_of_lt hy⟩])]
      unfold wahl heavy
      rw [if_neg (by linarith), if_neg (by linarith), if_neg (by linarith), if_pos (by linarith)]
    · rw [z1 _ (by rw [← y1]; unfold peakNew; simp only []; rw [if_neg (by rintro ⟨_, x⟩; linarith), if_pos ⟨le_of_lt hy, le_of_lt hw5⟩])]
      unfold wahl heavy
      rw [if_pos (by linarith), if_neg (by linarith), if_neg (by linarith), if_pos hy]
  push Not at hy
  obtain ⟨hy3, hy4⟩ := hy
  rw [e2]
  unfold symNew at y2
  simp only [] at y2
  rw [← ha] at y2
  by_cases hA1 : a ≤ c.b.ba
  · rw [if_neg (by intro x; linarith)]
    rw [if_pos ⟨hy3, hA1⟩] at y2
    simp only [Res.ok.injEq] at y2
    rw [z2 _ y2.symm]
    unfold wahl heavy
    rw [if_neg (by linarith), if_neg (by linarith), if_neg (by linarith), if_neg (by linarith), if_pos (by linarith)]
    have : -c.p.delzmax - c.p.sl50 * (a - c.b.ba) = -(c.p.delzmax - c.p.sl50 * ((c.af : K) - a - c.b.bb)) := by
      rw [da]; ring
    rw [this]
  push Not at hA1
  rw [if_neg (by rintro ⟨_, x⟩; linarith)] at y2
  by_cases hA2 : a ≤ c.b.bb
  · rw [if_pos ⟨le_of_lt hA1, hA2⟩, if_neg (by intro x; linarith)] at y2
    simp only [Res.ok.injEq] at y2
    rw [z2 _ y2.symm]
    by_cases hne : a = c.b.bb
    · rw [if_pos hne, hne]
      have hd1 : c.b.bb - c.b.ba ≠ 0 := by intro x; linarith
      have : -c.p.delzmax + (c.b.bb - c.b.ba) * 2 * c.p.delzmax / (c.b.bb - c.b.ba) = c.p.delzmax := by
        field_simp
        ring
      rw [this]
    rw [if_neg hne]
    have hlt : a < c.b.bb := lt_of_le_of_ne hA2 hne
    have hd1 : c.b.bb - c.b.ba ≠ 0 := by intro x; linarith
    have hd2 : 2 * c.b.bb - (c.af : K) ≠ 0 := by intro x; linarith
    have key : -c.p.delzmax + (a - c.b.ba) * 2 * c.p.delzmax / (c.b.bb - c.b.ba) =
        c.p.delzmax * (2 * a - c.af) / (2 * c.b.bb - c.af) := by
      have : c.b.bb - c.b.ba = 2 * c.b.bb - c.af := by rw [da]; ring
      rw [this, eq_div_iff hd2, add_mul, div_mul_cancel₀ _ hd2, da]
      ring
    rw [key]
    unfold wahl heavy
    by_cases h2 : (c.af : K) ≤ 2 * a
    · rw [if_pos h2, if_neg (by linarith), if_neg (by linarith), if_neg (by linarith), if_neg (by linarith)]
    · rw [if_neg h2, if_neg (by linarith), if_neg (by linarith), if_neg (by linarith), if_neg (by linarith)]
      have : c.p.delzmax * (2 * a - c.af) / (2 * c.b.bb - c.af) =
          -(c.p.delzmax * (2 * ((c.af : K) - a) - c.af) / (2 * c.b.bb - c.af)) := by
        rw [← neg_div]
        congr 1
        ring
      rw [this]
  push Not at hA2
  rw [if_neg (by intro x; linarith)]
  rw [if_neg (by rintro ⟨_, x⟩; linarith), if_pos ⟨le_of_lt hA2, hy4⟩] at y2
  simp only [Res.ok.injEq] at y2
  rw [z2 _ y2.symm]
  unfold wahl heavy
  rw [if_pos (by linarith), if_neg (by linarith), if_neg (by linarith), if_neg (by linarith), if_pos (by linarith)]

/-- All integer bounds are inside the arrays. -/
theorem bounds_in {b : Bounds K} {af : Int} (hs : Sorted b) (hm : Made b af) :
    (70 ≤ b.i2 ∧ b.i2 ≤ af - 70) ∧ (70 ≤ b.i3 ∧ b.i3 ≤ af - 70) ∧ (70 ≤ b.ia ∧ b.ia ≤ af - 70) ∧
      (70 ≤ b.i4 ∧ b.i4 ≤ af - 70) ∧ (70 ≤ b.i5 ∧ b.i5 ≤ af - 70) := by
  have q1 := hs.h12; have q2 := hs.h23; have q3 := hs.h3a; have q4 := hs.hab; have q5 := hs.hb4
  have q6 := hs.h45; have q7 := hs.h56
  have d1 := hm.e1; have d6 := hm.e6; have d5 := hm.e5; have d3 := hm.e3; have da := hm.ea
  have low : ∀ x : K, 70 ≤ x → (70 : Int) ≤ ⌊x + 1 / 2⌋ := by
    intro x hx
    rw [Int.le_floor]
    push_cast
    linarith
  have high : ∀ x : K, x ≤ (af : K) - 70 → ⌊x + 1 / 2⌋ ≤ af - 70 := by
    intro x hx
    have : ⌊x + 1 / 2⌋ < af - 70 + 1 := by
      rw [Int.floor_lt]
      push_cast
      linarith
    omega
  have a2 := low b.b2 (by linarith); have c2 := high b.b2 (by linarith)
  have a4 := low b.b4 (by linarith); have c4 := high b.b4 (by linarith)
  have aa := low b.ba (by linarith); have ca := high b.ba (by linarith)
  rw [← hm.i2] at a2 c2
  rw [← hm.i4] at a4 c4
  rw [← (ia_eq hs hm).1] at aa ca
  have e5 := hm.i5
  have e3 := hm.i3
  refine ⟨⟨a2, c2⟩, ⟨?_, ?_⟩, ⟨aa, ca⟩, ⟨a4, c4⟩, ⟨?_, ?_⟩⟩ <;> omega

theorem read_run {α : Type} (xs : List α) (i : Int) (h0 : 0 ≤ i) (h1 : i < xs.length) : ∃ a, readAt xs i = .ok a :=
  ⟨_, readAt_ok_iff.mpr ⟨h0, List.getElem?_eq_getElem (by omega)⟩⟩

theorem regions_run {p : Zp K} {b : Bounds K} {af : Int} (hs : Sorted b) (hm : Made b af) (m : Nat) (lo : Int)
    (s : List (Ent K)) (h0 : 0 ≤ lo) (h1 : lo + m ≤ s.length) (haf : af - 70 < s.length) :
    ∃ s', regions (config p b af) m lo s = .ok s' := by
  obtain ⟨⟨b2, b2'⟩, ⟨b3, b3'⟩, ⟨ba, ba'⟩, ⟨b4, b4'⟩, ⟨b5, b5'⟩⟩ := bounds_in hs hm
  have hcb : (config p b af).b = b := by unfold config; rfl
  generalize config p b af = c at *
  subst hcb
  have rd : ∀ (t : List (Ent K)) (i : Int), t.length = s.length → 70 ≤ i → i ≤ af - 70 → ∃ e, readAt t i = .ok e :=
    fun t i ht x y => read_run t i (by omega) (by omega)
  have hn : ∀ A, ∃ n, symNew c A = .ok n := by
    intro A
    unfold symNew
    simp only []
    split_ifs with x1 x2 x3 x4
    · exact ⟨_, rfl⟩
    · exact absurd x3 (ne_of_gt hs.hab)
    · exact ⟨_, rfl⟩
    · exact ⟨_, rfl⟩
    · exact ⟨_, rfl⟩
  obtain ⟨s1, e1, l1⟩ := loop_run (fun _ A => .ok (peakOld c A)) (fun A => .ok (peakNew c A)) m lo s h0 h1
    (fun _ _ _ => ⟨_, rfl⟩) (fun _ => ⟨_, rfl⟩)
  obtain ⟨s2, e2, l2⟩ := loop_run (symOld c) (symNew c) m lo s1 h0 (by omega) (by
    intro t A ht
    unfold symOld
    obtain ⟨x3, r3⟩ := rd t c.b.i3 (by omega) b3 b3'
    obtain ⟨x4, r4⟩ := rd t c.b.i4 (by omega) b4 b4'
    obtain ⟨xa, ra⟩ := rd t c.b.ia (by omega) ba ba'
    rw [r3, r4, ra]
    split_ifs <;> exact ⟨_, rfl⟩) hn
  obtain ⟨s3, e3, l3⟩ := loop_run (wingOld c) (fun A => .ok (wingNew c A)) m lo s2 h0 (by omega) (by
    intro t A ht
    unfold wingOld
    obtain ⟨x3, r3⟩ := rd t c.b.i2 (by omega) b2 b2'
    obtain ⟨x4, r4⟩ := rd t c.b.i5 (by omega) b5 b5'
    rw [r3, r4]
    split_ifs <;> exact ⟨_, rfl⟩) (fun _ => ⟨_, rfl⟩)
  obtain ⟨s4, e4, _⟩ := loop_run (farOld c) (fun A => .ok (farNew c A)) m lo s3 h0 (by omega) (by
    intro t A ht
    unfold farOld
    obtain ⟨x3, r3⟩ := rd t c.b.i2 (by omega) b2 b2'
    obtain ⟨x4, r4⟩ := rd t c.b.i5 (by omega) b5 b5'
    rw [r3, r4]
    split_ifs <;> exact ⟨_, rfl⟩) (fun _ => ⟨_, rfl⟩)
  refine ⟨s4, ?_⟩
  unfold regions
  rw [e1]
  simp only [Res.bind]
  rw [e2]
  simp only []
  rw [e3]
  exact e4

theorem outZ_get (lo hi : Int) (s : List (Ent K)) (f : Ent K → Int → K) (A : Nat) (h1 : lo ≤ A) (h2 : (A : Int) ≤ hi) :
    (outZ lo hi s f)[A]? = (s[A]?).map fun e => f e A := by
  unfold outZ
  rw [List.getElem?_mapIdx]
  cases s[A]? with
  | none => rfl
  | some e => simp [h1, h2]

end CGMF.Wahl

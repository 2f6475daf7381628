import Verif.Model.SpinPar
import Verif.Proofs.Data
import Verif.Tactics

/-!
# Lemmas on the spin parameter and its tables
-/

namespace CGMF.Frag

variable {K : Type} [Field K] [LinearOrder K] [FloorRing K] [IsStrictOrderedRing K]

/-- A table of deformations with some defaults stored. -/
def BetaRel (b b' : List K) : Prop :=
  b'.length = b.length ∧ ∀ (i : Nat) (x : K), b[i]? = some x → b'[i]? = some x ∨ (x = -100 ∧ b'[i]? = some (1 / 5))

/-- A table of temperatures with some defaults stored. -/
def TempRel (b b' : List (List K)) : Prop :=
  b'.length = b.length ∧ ∀ (i : Nat) (x : List K), b[i]? = some x →
    b'[i]? = some x ∨ (x.head? = some 0 ∧ b'[i]? = some (List.replicate x.length 5))

theorem readAt_eq {α : Type} {xs : List α} {i : Int} :
    (∃ x, 0 ≤ i ∧ xs[i.toNat]? = some x ∧ readAt xs i = .ok x) ∨
      ((i < 0 ∨ xs.length ≤ i.toNat) ∧ readAt xs i = .ub) := by
  unfold readAt
  split
  · next h => exact Or.inl ⟨_, h.1, List.getElem?_eq_getElem h.2, rfl⟩
  · next h => exact Or.inr ⟨by omega, rfl⟩

theorem readAt_of {α : Type} {xs : List α} {i : Int} {x : α} (h0 : 0 ≤ i) (h : xs[i.toNat]? = some x) :
    readAt xs i = .ok x := by
  obtain ⟨h1, h2⟩ := List.getElem?_eq_some_iff.mp h
  unfold readAt
  rw [dif_pos ⟨h0, h1⟩, h2]

theorem readAt_out {α : Type} {xs : List α} {i : Int} (h : i < 0 ∨ xs.length ≤ i.toNat) : readAt xs i = .ub := by
  unfold readAt
  rw [dif_neg (by omega)]

theorem writeAt_of {α : Type} {xs : List α} {i : Int} {x v : α} (h0 : 0 ≤ i) (h : xs[i.toNat]? = some x) :
    writeAt xs i v = .ok (xs.set i.toNat v) := by
  obtain ⟨h1, _⟩ := List.getElem?_eq_some_iff.mp h
  unfold writeAt
  rw [if_pos ⟨h0, h1⟩]

theorem BetaRel.refl (b : List K) : BetaRel b b := ⟨rfl, fun _ _ h => Or.inl h⟩
theorem TempRel.refl (b : List (List K)) : TempRel b b := ⟨rfl, fun _ _ h => Or.inl h⟩

theorem BetaRel.trans {a b c : List K} (h1 : BetaRel a b) (h2 : BetaRel b c) : BetaRel a c := by
  refine ⟨h2.1.trans h1.1, fun i x hx => ?_⟩
  rcases h1.2 i x hx with h | ⟨e, h⟩
  · exact h2.2 i x h
  · rcases h2.2 i _ h with h' | ⟨e', _⟩
    · exact Or.inr ⟨e, h'⟩
    · exfalso; norm_num at e'

theorem TempRel.trans {a b c : List (List K)} (h1 : TempRel a b) (h2 : TempRel b c) : TempRel a c := by
  refine ⟨h2.1.trans h1.1, fun i x hx => ?_⟩
  rcases h1.2 i x hx with h | ⟨e, h⟩
  · exact h2.2 i x h
  · rcases h2.2 i _ h with h' | ⟨e', _⟩
    · exact Or.inr ⟨e, h'⟩
    · exfalso
      cases x with
      | nil => simp at e
      | cons => simp [List.replicate_succ] at e'

/-- The entry used for a nucleus. -/
def betaOf (x : K) : K := if x = -100 then 1 / 5 else x

theorem deformation_ok {b : List K} {z : Int} {x : K} (h0 : 0 ≤ z) (h : b[z.toNat]? = some x) :
    ∃ b', deformation b z = .ok (betaOf x, b') ∧ BetaRel b b' ∧ readAt b' z = .ok (betaOf x) := by
  unfold deformation betaOf
  rw [readAt_of h0 h]
  simp only [Res.bind]
  obtain ⟨hl, hv⟩ := List.getElem?_eq_some_iff.mp h
  by_cases e : x = -100
  · have hr : readAt (b.set z.toNat (1 / 5)) z = .ok (1 / 5 : K) := readAt_of h0 (by simp [hl])
    rw [if_pos e, if_pos e, writeAt_of h0 h]
    simp only [hr]
    refine ⟨_, rfl, ⟨by simp, fun i y hy => ?_⟩, hr⟩
    by_cases hi : z.toNat = i
    · subst hi
      rw [h] at hy
      refine Or.inr ⟨by rw [← Option.some.inj hy]; exact e, by simp [hl]⟩
    · exact Or.inl (by rw [List.getElem?_set_ne hi]; exact hy)
  · rw [if_neg e, if_neg e]
    exact ⟨_, rfl, BetaRel.refl _, readAt_of h0 h⟩

theorem deformation_ub {b : List K} {z : Int} (h : z < 0 ∨ b.length ≤ z.toNat) : deformation b z = .ub := by
  unfold deformation
  rw [readAt_out h]
  rfl

theorem temperature_ok {g : List K} {t : List (List K)} {z : Int} {e : K} {x : List K} (h0 : 0 ≤ z)
    (h : t[z.toNat]? = some x) :
    ∃ t', TempRel t t' ∧ temperature g t z e = (interpRow g (rowOf 5 x) e).bind fun v => .ok (v, t') := by
  unfold temperature rowOf
  rw [readAt_of h0 h]
  simp only [Res.bind]
  obtain ⟨hl, hv⟩ := List.getElem?_eq_some_iff.mp h
  by_cases c : x.head? = some 0
  · have hr : readAt (t.set z.toNat (List.replicate x.length 5)) z = .ok (List.replicate x.length (5 : K)) :=
      readAt_of h0 (by simp [hl])
    rw [if_pos c, if_pos c, writeAt_of h0 h]
    simp only [hr]
    refine ⟨_, ⟨by simp, fun i y hy => ?_⟩, rfl⟩
    by_cases hi : z.toNat = i
    · subst hi
      rw [h] at hy
      obtain rfl := Option.some.inj hy
      exact Or.inr ⟨c, by simp [hl]⟩
    · exact Or.inl (by rw [List.getElem?_set_ne hi]; exact hy)
  · rw [if_neg c, if_neg c]
    simp only [readAt_of h0 h]
    exact ⟨_, TempRel.refl _, rfl⟩

theorem temperature_ub {g : List K} {t : List (List K)} {z : Int} {e : K} (h : z < 0 ∨ t.length ≤ z.toNat) :
    temperature g t z e = .ub := by
  unfold temperature
  rw [readAt_out h]
  rfl

/-- What one request returns and leaves, for a nucleus inside both tables. -/
theorem spinParameter2_in (k : Phys K) (alpha : K) {t : Tables K} {U : K} {A Z : Int} {x : K} {row : List K}
    (h0 : 0 ≤ 1000 * Z + A) (hb : t.beta[(1000 * Z + A).toNat]? = some x)
    (ht : t.temp[(1000 * Z + A).toNat]? = some row) :
    ∃ b' t', BetaRel t.beta b' ∧ TempRel t.temp t' ∧ spinParameter2 k alpha t U A Z =
      (interpRow t.grid (rowOf 5 row) U).bind fun v =>
        .ok (inertia k alpha (betaOf x) A * v / k.hbarc / k.hbarc, ⟨b', t.grid, t'⟩) := by
  obtain ⟨b', e1, r1, e2⟩ := deformation_ok h0 hb
  obtain ⟨t', r2, e3⟩ := temperature_ok (g := t.grid) (e := U) h0 ht
  refine ⟨b', t', r1, r2, ?_⟩
  unfold spinParameter2
  rw [e1, show Z * 1000 + A = 1000 * Z + A by ring]
  simp only [Res.bind, e2, e3]
  cases interpRow t.grid (rowOf 5 row) U <;> rfl

theorem spinParameter2_out (k : Phys K) (alpha : K) {t : Tables K} {U : K} {A Z : Int}
    (h : 1000 * Z + A < 0 ∨ t.beta.length ≤ (1000 * Z + A).toNat ∨ t.temp.length ≤ (1000 * Z + A).toNat) :
    spinParameter2 k alpha t U A Z = .ub := by
  by_cases hb : 1000 * Z + A < 0 ∨ t.beta.length ≤ (1000 * Z + A).toNat
  · unfold spinParameter2
    rw [deformation_ub hb]
    rfl
  · push Not at hb
    have hl : (1000 * Z + A).toNat < t.beta.length := by omega
    obtain ⟨b', e1, r1, e2⟩ := deformation_ok hb.1 (List.getElem?_eq_getElem hl)
    unfold spinParameter2
    rw [e1, show Z * 1000 + A = 1000 * Z + A by ring]
    simp only [Res.bind, e2]
    rw [temperature_ub (by omega)]

/-- Tables that differ by stored defaults. -/
def TabRel (t t' : Tables K) : Prop := BetaRel t.beta t'.beta ∧ t'.grid = t.grid ∧ TempRel t.temp t'.temp

theorem TabRel.refl (t : Tables K) : TabRel t t := ⟨BetaRel.refl _, rfl, TempRel.refl _⟩

theorem TabRel.trans {a b c : Tables K} (h1 : TabRel a b) (h2 : TabRel b c) : TabRel a c :=
  ⟨h1.1.trans h2.1, h2.2.1.trans h1.2.1, h1.2.2.trans h2.2.2⟩

theorem spinParameter2_rel {k : Phys K} {alpha : K} {t : Tables K} {U : K} {A Z : Int} {r : K × Tables K}
    (h : spinParameter2 k alpha t U A Z = .ok r) : TabRel t r.2 := by
  by_cases hin : 1000 * Z + A < 0 ∨ t.beta.length ≤ (1000 * Z + A).toNat ∨ t.temp.length ≤ (1000 * Z + A).toNat
  · rw [spinParameter2_out k alpha hin] at h; cases h
  · push Not at hin
    obtain ⟨b', t', r1, r2, e⟩ := spinParameter2_in k alpha (U := U) hin.1 (List.getElem?_eq_getElem hin.2.1)
      (List.getElem?_eq_getElem hin.2.2)
    rw [e] at h
    cases hi : interpRow t.grid (rowOf 5 t.temp[(1000 * Z + A).toNat]) U <;> rw [hi] at h <;> simp only [Res.bind] at h
    · cases h
      exact ⟨r1, rfl, r2⟩
    · cases h
    · cases h

theorem rowOf_rel {x : List K} (h : x.head? = some 0) : rowOf 5 (List.replicate x.length (5 : K)) = rowOf 5 x := by
  unfold rowOf
  rw [if_pos h]
  cases x with
  | nil => simp at h
  | cons a l => rw [if_neg (by simp [List.replicate_succ])]

theorem spinParameter_rel (k : Phys K) (alpha : K) {t t' : Tables K} (h : TabRel t t') (U : K) (A Z : Int) :
    spinParameter k alpha t' U A Z = spinParameter k alpha t U A Z := by
  unfold spinParameter
  by_cases hin : 1000 * Z + A < 0 ∨ t.beta.length ≤ (1000 * Z + A).toNat ∨ t.temp.length ≤ (1000 * Z + A).toNat
  · rw [spinParameter2_out k alpha hin, spinParameter2_out k alpha (by rw [h.1.1, h.2.2.1]; exact hin)]
  · push Not at hin
    have hb := List.getElem?_eq_getElem hin.2.1
    have ht := List.getElem?_eq_getElem hin.2.2
    obtain ⟨b1, t1, _, _, e1⟩ := spinParameter2_in k alpha (U := U) hin.1 hb ht
    obtain ⟨x', hx', ex⟩ : ∃ x', t'.beta[(1000 * Z + A).toNat]? = some x' ∧ betaOf x' = betaOf t.beta[(1000 * Z + A).toNat] := by
      rcases h.1.2 _ _ hb with h' | ⟨e, h'⟩
      · exact ⟨_, h', rfl⟩
      · refine ⟨_, h', ?_⟩
        unfold betaOf
        rw [if_pos e, if_neg (by norm_num)]
    obtain ⟨y', hy', ey⟩ : ∃ y', t'.temp[(1000 * Z + A).toNat]? = some y' ∧
        rowOf 5 y' = rowOf 5 t.temp[(1000 * Z + A).toNat] := by
      rcases h.2.2.2 _ _ ht with h' | ⟨e, h'⟩
      · exact ⟨_, h', rfl⟩
      · exact ⟨_, h', rowOf_rel e⟩
    obtain ⟨b2, t2, _, _, e2⟩ := spinParameter2_in k alpha (U := U) hin.1 hx' hy'
    rw [e1, e2, ex, ey, h.2.1]
    cases interpRow t.grid (rowOf 5 t.temp[(1000 * Z + A).toNat]) U <;> rfl

theorem asked_rel (k : Phys K) : ∀ (qs : List (Ask K)) (t t' : Tables K), asked k qs t = .ok t' → TabRel t t'
  | [], t, t', h => by cases h; exact TabRel.refl _
  | q :: qs, t, t', h => by
      unfold asked at h
      cases hr : spinParameter2 k q.alpha t q.U q.A q.Z with
      | ok r => rw [hr] at h; exact (spinParameter2_rel hr).trans (asked_rel k qs _ _ h)
      | exit => rw [hr] at h; cases h
      | ub => rw [hr] at h; cases h

/-- A positive interpolation on a positive row. -/
theorem shape_pos (b : K) : 0 < 1 + 31 / 100 * b + 11 / 25 * b ^ 2 := by nlinarith [sq_nonneg (b + 31 / 88)]

end CGMF.Frag

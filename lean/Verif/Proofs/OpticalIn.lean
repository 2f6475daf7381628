import Verif.Proofs.Optical
import Verif.Spec.Optical

/-! # Optical model: proofs about the wave function inside the potential and the matching -/

set_option linter.unusedSectionVars false

namespace CGMF.Opt

open CGMF.OptSpec

variable {K : Type} [Field K] [LinearOrder K] [IsStrictOrderedRing K]

theorem sq_add_ne {a b : K} : a * a + b * b ≠ 0 ↔ ¬ (a = 0 ∧ b = 0) := by
  constructor
  · rintro h ⟨rfl, rfl⟩; simp at h
  · intro h h'
    apply h
    have h1 := mul_self_nonneg a
    have h2 := mul_self_nonneg b
    exact ⟨mul_self_eq_zero.mp (by linarith), mul_self_eq_zero.mp (by linarith)⟩

theorem sq_add_pos {a b : K} (h : ¬ (a = 0 ∧ b = 0)) : 0 < a * a + b * b :=
  lt_of_le_of_ne (add_nonneg (mul_self_nonneg a) (mul_self_nonneg b)) (Ne.symm (sq_add_ne.mpr h))

theorem rational_ok {a1 a2 b1 b2 : K} {c : Cx K} : rational a1 a2 b1 b2 = .ok c ↔
    ¬ (b1 = 0 ∧ b2 = 0) ∧ mul ⟨b1, b2⟩ c = ⟨a1, a2⟩ := by
  unfold rational
  by_cases h : b1 * b1 + b2 * b2 = 0
  · have : b1 = 0 ∧ b2 = 0 := by
      by_contra h'; exact sq_add_ne.mpr h' h
    simp only
    rw [if_pos h]
    constructor
    · intro h'; cases h'
    · intro h'; exact absurd this h'.1
  · have hn : ¬ (b1 = 0 ∧ b2 = 0) := sq_add_ne.mp h
    simp only
    rw [if_neg h]
    have hp := sq_add_pos hn
    constructor
    · intro h'
      cases h'
      refine ⟨hn, ?_⟩
      unfold mul
      simp only [Cx.mk.injEq]
      constructor
      · rw [← mul_div_assoc, ← mul_div_assoc, ← sub_div, div_eq_iff h]; ring
      · rw [← mul_div_assoc, ← mul_div_assoc, ← add_div, div_eq_iff h]; ring
    · rintro ⟨_, h'⟩
      obtain ⟨cr, ci⟩ := c
      unfold mul at h'
      simp only [Cx.mk.injEq] at h'
      obtain ⟨h1, h2⟩ := h'
      rw [← h1, ← h2]
      simp only [Res.ok.injEq, Cx.mk.injEq]
      constructor
      · rw [div_eq_iff h]; ring
      · rw [div_eq_iff h]; ring

theorem rational_zero {a1 a2 b1 b2 : K} (h : b1 = 0 ∧ b2 = 0) : rational a1 a2 b1 b2 = .ub := by
  unfold rational
  simp only
  rw [if_pos (by rw [h.1, h.2]; ring)]

/-- `1 - d2 q` as a complex number. -/
def den (d2 : K) (q : Cx K) : Cx K := ⟨1 - d2 * q.re, -(d2 * q.im)⟩

/-- The three-term relation of the Fox-Goodwin method. -/
def Rel (d2 : K) (q1 q2 q3 p1 p2 p3 : Cx K) : Prop :=
  mul (den d2 q3) p3 = sub (mul ⟨2 + 10 * d2 * q2.re, 10 * d2 * q2.im⟩ p2) (mul (den d2 q1) p1)

theorem fgStep_ok {d2 : K} {q1 q2 q3 p1 p2 p3 : Cx K} : fgStep d2 q1 q2 q3 p1 p2 = .ok p3 ↔
    ¬ (1 - d2 * q3.re = 0 ∧ -(d2 * q3.im) = 0) ∧ Rel d2 q1 q2 q3 p1 p2 p3 := by
  unfold fgStep
  simp only
  by_cases hn : 1 - d2 * q3.re = 0 ∧ -(d2 * q3.im) = 0
  · rw [rational_zero hn]
    constructor
    · intro h; cases h
    · intro h; exact absurd hn h.1
  · obtain ⟨c, hc⟩ : ∃ c, rational 1 0 (1 - d2 * q3.re) (-(d2 * q3.im)) = .ok c := by
      unfold rational
      simp only
      rw [if_neg (sq_add_ne.mpr hn)]
      exact ⟨_, rfl⟩
    rw [hc]
    simp only [Res.bind_ok]
    obtain ⟨_, hc2⟩ := rational_ok.mp hc
    unfold mul at hc2
    simp only [Cx.mk.injEq] at hc2
    obtain ⟨hA, hB⟩ := hc2
    unfold Rel den sub mul
    obtain ⟨pr, pi⟩ := p3
    simp only [Res.ok.injEq, Cx.mk.injEq]
    have hp := sq_add_pos hn
    generalize hR : (2 + 10 * d2 * q2.re) * p2.re - 10 * d2 * q2.im * p2.im - (1 - d2 * q1.re) * p1.re +
      -(d2 * q1.im) * p1.im = R
    generalize hI : (2 + 10 * d2 * q2.re) * p2.im + 10 * d2 * q2.im * p2.re - (1 - d2 * q1.re) * p1.im -
      -(d2 * q1.im) * p1.re = I
    have hR' : (2 + 10 * d2 * q2.re) * p2.re - 10 * d2 * q2.im * p2.im -
        ((1 - d2 * q1.re) * p1.re - -(d2 * q1.im) * p1.im) = R := by rw [← hR]; ring
    have hI' : (2 + 10 * d2 * q2.re) * p2.im + 10 * d2 * q2.im * p2.re -
        ((1 - d2 * q1.re) * p1.im + -(d2 * q1.im) * p1.re) = I := by rw [← hI]; ring
    rw [hR', hI']
    generalize 1 - d2 * q3.re = u at *
    generalize -(d2 * q3.im) = v at *
    constructor
    · rintro ⟨h1, h2⟩
      refine ⟨hn, ?_, ?_⟩
      · rw [← h1, ← h2]
        calc u * (c.re * R - c.im * I) - v * (c.re * I + c.im * R)
            = (u * c.re - v * c.im) * R - (u * c.im + v * c.re) * I := by ring
          _ = R := by rw [hA, hB]; ring
      · rw [← h1, ← h2]
        calc u * (c.re * I + c.im * R) + v * (c.re * R - c.im * I)
            = (u * c.re - v * c.im) * I + (u * c.im + v * c.re) * R := by ring
          _ = I := by rw [hA, hB]; ring
    · rintro ⟨_, h1, h2⟩
      constructor
      · rw [← h1, ← h2]
        calc c.re * (u * pr - v * pi) - c.im * (u * pi + v * pr)
            = (u * c.re - v * c.im) * pr - (u * c.im + v * c.re) * pi := by ring
          _ = pr := by rw [hA, hB]; ring
      · rw [← h1, ← h2]
        calc c.re * (u * pi + v * pr) + c.im * (u * pr - v * pi)
            = (u * c.re - v * c.im) * pi + (u * c.im + v * c.re) * pr := by ring
          _ = pi := by rw [hA, hB]; ring

/-- The coefficient used at mesh point `i`; the code takes 0 at the origin. -/
def Q (h k2 l s j : K) (V W U X : Nat → K) (i : Nat) : Cx K :=
  if i = 0 then ⟨0, 0⟩ else radialQ h k2 l s j V W U X i

theorem qAt_mesh {pot : Pot K} {N : Nat} {h : K} {V W U X : Nat → K} (hp : OnMesh pot N h V W U X)
    (hh : h ≠ 0) (k2 l s j : K) (i : Nat) (hi : 1 ≤ i) :
    qAt pot k2 (l * (l + 1)) (j * (j + 1) - l * (l + 1) - s * (s + 1)) (i : Int) =
      if i < N then .ok (Q h k2 l s j V W U X i) else .ub := by
  unfold qAt
  by_cases hN : i < N
  · rw [if_pos hN, hp.radi, hp.mean, hp.so, readAt_range_map _ hN, readAt_range_map _ hN, readAt_range_map _ hN]
    simp only [Res.bind_ok]
    have : ((i : K) * h) ^ 2 ≠ 0 := by
      apply pow_ne_zero
      apply mul_ne_zero _ hh
      exact_mod_cast (by omega : i ≠ 0)
    rw [if_neg this]
    unfold Q
    rw [if_neg (by omega)]
    rfl
  · rw [if_neg hN, hp.radi]
    have : readAt ((List.range N).map fun i : Nat => ((i : K) * h) ^ 2) (i : Int) = .ub := by
      unfold readAt
      rw [dif_neg]
      simp; omega
    rw [this]; rfl

/-- Every three neighbours of a table obey the relation. -/
def Triples (d2 : K) (q : Nat → Cx K) (w : List (Cx K)) : Prop :=
  ∀ (i : Nat) (a b c : Cx K), w[i]? = some a → w[i + 1]? = some b → w[i + 2]? = some c →
    ¬ (1 - d2 * (q (i + 2)).re = 0 ∧ -(d2 * (q (i + 2)).im) = 0) ∧ Rel d2 (q i) (q (i + 1)) (q (i + 2)) a b c

theorem fgLoop_ok {pot : Pot K} {k2 d2 xlt sot : K} {q : Nat → Cx K} {N : Nat}
    (hq : ∀ i : Nat, 1 ≤ i → qAt pot k2 xlt sot (i : Int) = if i < N then .ok (q i) else .ub) :
    ∀ (n i : Nat) (p1 p2 : Cx K) (acc : List (Cx K)), acc.length = i + 2 → acc[i]? = some p1 →
      acc[i + 1]? = some p2 → Triples d2 q acc → ∀ w,
      fgLoop pot k2 d2 xlt sot n (i + 2) (q i) (q (i + 1)) p1 p2 acc = .ok w →
      w.length = i + 2 + n ∧ acc <+: w ∧ Triples d2 q w := by
  intro n
  induction n with
  | zero =>
    intro i p1 p2 acc hl _ _ ht w hw
    unfold fgLoop at hw
    cases hw
    exact ⟨by omega, List.prefix_rfl, ht⟩
  | succ n ih =>
    intro i p1 p2 acc hl h1 h2 ht w hw
    unfold fgLoop at hw
    rw [hq (i + 2) (by omega)] at hw
    by_cases hN : i + 2 < N
    · rw [if_pos hN] at hw
      simp only [Res.bind_ok] at hw
      obtain ⟨p3, h3, h4⟩ := Res.bind_eq_ok.mp hw
      have hs := fgStep_ok.mp h3
      have hlen : (acc ++ [p3]).length = (i + 1) + 2 := by simp [hl]
      have e1 : (acc ++ [p3])[i + 1]? = some p2 := by
        rw [List.getElem?_append_left (by omega)]; exact h2
      have e2 : (acc ++ [p3])[i + 1 + 1]? = some p3 := by
        rw [List.getElem?_append_right (by omega), hl]; simp
      have ht' : Triples d2 q (acc ++ [p3]) := by
        intro k a b c ha hb hc
        by_cases hk : k + 2 < acc.length
        · rw [List.getElem?_append_left (by omega)] at ha hb hc
          exact ht k a b c ha hb hc
        · have hk2 : k + 2 < (acc ++ [p3]).length := (List.getElem?_eq_some_iff.mp hc).1
          rw [hlen] at hk2
          have : k = i := by omega
          subst this
          rw [List.getElem?_append_left (by omega), h1] at ha
          rw [e1] at hb
          rw [show k + 2 = k + 1 + 1 from rfl, e2] at hc
          cases ha; cases hb; cases hc
          exact hs
      obtain ⟨g1, g2, g3⟩ := ih (i + 1) p2 p3 (acc ++ [p3]) hlen e1 e2 ht' w h4
      refine ⟨by omega, ?_, g3⟩
      exact List.IsPrefix.trans (List.prefix_append _ _) g2
    · rw [if_neg hN] at hw
      cases hw

theorem fgLoop_total {pot : Pot K} {k2 d2 xlt sot : K} {q : Nat → Cx K} {N : Nat}
    (hq : ∀ i : Nat, 1 ≤ i → qAt pot k2 xlt sot (i : Int) = if i < N then .ok (q i) else .ub) :
    ∀ (n i : Nat) (p1 p2 : Cx K) (acc : List (Cx K)), i + 2 + n ≤ N →
      (∀ k, i + 2 ≤ k → k < i + 2 + n → ¬ (1 - d2 * (q k).re = 0 ∧ -(d2 * (q k).im) = 0)) →
      ∃ w, fgLoop pot k2 d2 xlt sot n (i + 2) (q i) (q (i + 1)) p1 p2 acc = .ok w := by
  intro n
  induction n with
  | zero => intro i p1 p2 acc _ _; exact ⟨acc, by simp [fgLoop]⟩
  | succ n ih =>
    intro i p1 p2 acc hN hd
    unfold fgLoop
    rw [hq (i + 2) (by omega), if_pos (by omega)]
    simp only [Res.bind_ok]
    obtain ⟨p3, hp3⟩ : ∃ p3, fgStep d2 (q i) (q (i + 1)) (q (i + 2)) p1 p2 = .ok p3 := by
      unfold fgStep rational
      simp only
      rw [if_neg (sq_add_ne.mpr (hd (i + 2) (by omega) (by omega)))]
      exact ⟨_, rfl⟩
    rw [hp3]
    simp only [Res.bind_ok]
    exact ih (i + 1) p2 p3 _ (by omega) (fun k h1 h2 => hd k (by omega) (by omega))

theorem internal_ok {pot : Pot K} {N : Nat} {h : K} {V W U X : Nat → K} (hp : OnMesh pot N h V W U X)
    (hh : h ≠ 0) {n : Nat} (hn : 1 ≤ n) {k2 l s j amp eps : K} {w : List (Cx K)}
    (hw : internal n h k2 l s j amp eps pot = .ok w) :
    w.length = n + 1 ∧ w[0]? = some ⟨0, 0⟩ ∧ w[1]? = some ⟨amp, amp * eps⟩ ∧
      Triples (h * h / 12) (Q h k2 l s j V W U X) w := by
  unfold internal at hw
  simp only at hw
  have hq := qAt_mesh hp hh k2 l s j
  have h1 := hq 1 (le_refl _)
  rw [Nat.cast_one] at h1
  rw [h1] at hw
  by_cases hN : 1 < N
  · rw [if_pos hN] at hw
    simp only [Res.bind_ok] at hw
    have ht : Triples (h * h / 12) (Q h k2 l s j V W U X) [⟨0, 0⟩, ⟨amp, amp * eps⟩] := by
      intro k a b c _ _ hc
      simp at hc
    have := fgLoop_ok hq (n - 1) 0 ⟨0, 0⟩ ⟨amp, amp * eps⟩ [⟨0, 0⟩, ⟨amp, amp * eps⟩] rfl rfl rfl ht w hw
    obtain ⟨g1, g2, g3⟩ := this
    refine ⟨by omega, ?_, ?_, g3⟩
    · obtain ⟨t, rfl⟩ := g2; rfl
    · obtain ⟨t, rfl⟩ := g2; rfl
  · rw [if_neg hN] at hw
    cases hw

end CGMF.Opt

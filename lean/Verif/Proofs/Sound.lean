import Verif.Model.Rnd
import Verif.Tactics

/-! # Computations with random numbers in [0, 1): absence of undefined behaviour and facts about results -/

set_option linter.unusedSectionVars false

namespace CGMF

variable {K : Type} [Field K] [LinearOrder K] [IsStrictOrderedRing K]

/-- All random numbers lie in `[0, 1)`. -/
def Unit01 (s : List K) : Prop := ∀ r ∈ s, 0 ≤ r ∧ r < 1

theorem Unit01.cons {r : K} {s : List K} (h : Unit01 (r :: s)) : (0 ≤ r ∧ r < 1) ∧ Unit01 s :=
  ⟨h r (by simp), fun q hq => h q (by simp [hq])⟩

/-- With random numbers in `[0, 1)`, `x` is not undefined and its results satisfy `P`. -/
def Sound {α : Type} (x : Rnd K α) (P : α → Prop) : Prop :=
  ∀ s : List K, Unit01 s → x s ≠ .ub ∧ ∀ a s', x s = .ok (a, s') → P a ∧ Unit01 s'

namespace Sound

variable {α β : Type}

theorem pure {a : α} {P : α → Prop} (h : P a) : Sound (pure a : Rnd K α) P := by
  intro s hs
  refine ⟨by simp, ?_⟩
  intro b s' e
  obtain ⟨rfl, rfl⟩ := Rnd.pure_ok.mp e
  exact ⟨h, hs⟩

theorem stop {P : α → Prop} : Sound (Rnd.stop : Rnd K α) P := by intro s _; simp

theorem more {P : α → Prop} : Sound (fun _ => .more : Rnd K α) P := by intro s _; simp

theorem lift {o : Res α} {P : α → Prop} (h : o ≠ .ub) (hp : ∀ a, o = .ok a → P a) :
    Sound (Rnd.lift o : Rnd K α) P := by
  intro s hs
  refine ⟨by cases o <;> simp_all [Rnd.lift], ?_⟩
  intro b s' e
  obtain ⟨e1, rfl⟩ := Rnd.lift_ok.mp e
  exact ⟨hp b e1, hs⟩

theorem lift_ok {o : Res α} {P : α → Prop} {a : α} (h : o = .ok a) (hp : P a) :
    Sound (Rnd.lift o : Rnd K α) P := by
  subst h
  exact lift (by simp) (by intro b hb; cases hb; exact hp)

theorem draw {P : K → Prop} (h : ∀ r, 0 ≤ r → r < 1 → P r) : Sound (Rnd.draw : Rnd K K) P := by
  intro s hs
  cases s with
  | nil => simp [Rnd.draw]
  | cons r s =>
    refine ⟨by simp, ?_⟩
    intro a s' e
    simp at e
    obtain ⟨rfl, rfl⟩ := e
    exact ⟨h r hs.cons.1.1 hs.cons.1.2, hs.cons.2⟩

theorem bind {x : Rnd K α} {f : α → Rnd K β} {P : α → Prop} {Q : β → Prop}
    (hx : Sound x P) (hf : ∀ a, P a → Sound (f a) Q) : Sound (x >>= f) Q := by
  intro s hs
  constructor
  · rw [Rnd.bind_run]
    cases h : x s with
    | ok p =>
      obtain ⟨a, s1⟩ := p
      obtain ⟨h1, h2⟩ := (hx s hs).2 a s1 h
      exact (hf a h1 s1 h2).1
    | ub => exact absurd h (hx s hs).1
    | _ => simp
  · intro b s' h
    obtain ⟨a, s1, h1, h2⟩ := Rnd.bind_ok.mp h
    obtain ⟨h3, h4⟩ := (hx s hs).2 a s1 h1
    exact (hf a h3 s1 h4).2 b s' h2

theorem mono {x : Rnd K α} {P Q : α → Prop} (hx : Sound x P) (h : ∀ a, P a → Q a) : Sound x Q := by
  intro s hs
  refine ⟨(hx s hs).1, ?_⟩
  intro a s' e
  obtain ⟨h1, h2⟩ := (hx s hs).2 a s' e
  exact ⟨h a h1, h2⟩

theorem ite {p : Prop} [Decidable p] {x y : Rnd K α} {P : α → Prop} (hx : p → Sound x P) (hy : ¬p → Sound y P) :
    Sound (if p then x else y) P := by
  by_cases h : p
  · rw [if_pos h]; exact hx h
  · rw [if_neg h]; exact hy h

end Sound

end CGMF

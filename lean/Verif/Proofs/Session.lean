import Verif.Spec.Session
import Verif.Proofs.PreLaw
import Verif.Props.Initial

/-! # Many fissions from one object -/

namespace CGMF.Law

open MeasureTheory CGMF.Pre CGMF.Frag CGMF.Props

variable {α β : Type}

/-- Two programs that end alike. -/
def SameEnd (f g : Rnd ℝ Unit) : Prop := ∀ s s', f s = .ok ((), s') ↔ g s = .ok ((), s')

theorem SameEnd.prob {f g : Rnd ℝ Unit} (h : SameEnd f g) : prob f () = prob g () := by
  unfold Law.prob
  congr 1
  ext ω
  exact exists_congr fun n => h _ _

theorem SameEnd.meas {f g : Rnd ℝ Unit} (h : SameEnd f g) (hg : Meas g) : Meas f := by
  intro a n
  have : At f a n = At g a n := by
    ext ω
    exact h _ _
  rw [this]
  exact hg a n

theorem local_mark' {f : Rnd ℝ α} (hf : Local f) (A : Set α) : Local (mark f A) := by
  classical
  exact local_bind hf fun a => by
    split
    · exact local_pure _
    · exact local_undef'

theorem Observable.mark {f : Rnd ℝ α} {A : Set α} (h : Observable f A) : Meas (mark f A) := by
  intro a n
  have : At (Law.mark f A) a n = {ω : ℕ → ℝ | ∃ a ∈ A, f (pre ω n) = .ok (a, [])} := by
    ext ω
    exact mark_ok
  rw [this]
  exact h.meas n

theorem observable_of {f : Rnd ℝ α} {A : Set α} (hl : Local f) (hm : Meas (mark f A)) : Observable f A := by
  refine ⟨hl, fun n => ?_⟩
  have : At (mark f A) () n = {ω : ℕ → ℝ | ∃ a ∈ A, f (pre ω n) = .ok (a, [])} := by
    ext ω
    exact mark_ok
  rw [← this]
  exact hm () n

/-- Sequences of programs that observe. -/
theorem prob_two {f g : Rnd ℝ Unit} (hl : Local f) (hf : Meas f) (hg : Meas g) : prob (f >>= fun _ => g) () = prob f () * prob g () := by
  rw [prob_bind hl hf (fun _ => hg)]
  simp

theorem meas_two {f g : Rnd ℝ Unit} (hl : Local f) (hf : Meas f) (hg : Meas g) : Meas (f >>= fun _ => g) :=
  meas_bind hl hf fun _ => hg

/-- A choice before an observed program. -/
theorem mark_after (f : Rnd ℝ α) (g : α → Rnd ℝ β) (A : Set β) : mark (f >>= g) A = f >>= fun a => mark (g a) A := bind_assoc_rnd _ _ _

theorem sameEnd_cons (f : Rnd ℝ α) (g : Rnd ℝ (List α)) (A : Set α) (As : List (Set α)) :
    SameEnd (mark (f >>= fun e => g >>= fun es => pure (e :: es)) (AllIn (A :: As))) (mark f A >>= fun _ => mark g (AllIn As)) := by
  intro s s'
  rw [mark_ok]
  constructor
  · rintro ⟨es, he, h⟩
    obtain ⟨e, s1, h1, h⟩ := Rnd.bind_ok.mp h
    obtain ⟨es', s2, h2, h⟩ := Rnd.bind_ok.mp h
    obtain ⟨rfl, rfl⟩ := Rnd.pure_ok.mp h
    obtain ⟨he1, he2⟩ := List.forall₂_cons.mp he
    exact Rnd.bind_ok.mpr ⟨(), s1, mark_ok.mpr ⟨e, he1, h1⟩, mark_ok.mpr ⟨es', he2, h2⟩⟩
  · intro h
    obtain ⟨_, s1, h1, h2⟩ := Rnd.bind_ok.mp h
    obtain ⟨e, he1, h1⟩ := mark_ok.mp h1
    obtain ⟨es, he2, h2⟩ := mark_ok.mp h2
    exact ⟨e :: es, List.forall₂_cons.mpr ⟨he1, he2⟩, Rnd.bind_ok.mpr ⟨e, s1, h1, Rnd.bind_ok.mpr ⟨es, s', h2, rfl⟩⟩⟩

theorem sameEnd_append {f : Rnd ℝ (List α)} (g : Rnd ℝ (List α)) (A : Set α) (As : List (Set α))
    (hf : ∀ s es s', f s = .ok (es, s') → es.length = 1) :
    SameEnd (mark (f >>= fun es => g >>= fun r => pure (es ++ r)) (AllIn (A :: As))) (mark f (AllIn [A]) >>= fun _ => mark g (AllIn As)) := by
  intro s s'
  rw [mark_ok]
  constructor
  · rintro ⟨es, he, h⟩
    obtain ⟨e, s1, h1, h⟩ := Rnd.bind_ok.mp h
    obtain ⟨es', s2, h2, h⟩ := Rnd.bind_ok.mp h
    obtain ⟨rfl, rfl⟩ := Rnd.pure_ok.mp h
    obtain ⟨x, rfl⟩ := List.length_eq_one_iff.mp (hf _ _ _ h1)
    obtain ⟨he1, he2⟩ := List.forall₂_cons.mp he
    exact Rnd.bind_ok.mpr ⟨(), s1, mark_ok.mpr ⟨[x], List.forall₂_cons.mpr ⟨he1, .nil⟩, h1⟩, mark_ok.mpr ⟨es', he2, h2⟩⟩
  · intro h
    obtain ⟨_, s1, h1, h2⟩ := Rnd.bind_ok.mp h
    obtain ⟨e, he1, h1⟩ := mark_ok.mp h1
    obtain ⟨es, he2, h2⟩ := mark_ok.mp h2
    obtain ⟨x, rfl⟩ := List.length_eq_one_iff.mp (hf _ _ _ h1)
    obtain ⟨he1, -⟩ := List.forall₂_cons.mp he1
    exact ⟨[x] ++ es, List.forall₂_cons.mpr ⟨he1, he2⟩, Rnd.bind_ok.mpr ⟨[x], s1, h1, Rnd.bind_ok.mpr ⟨es, s', h2, rfl⟩⟩⟩

section

variable {M κ : Type} {amu : ℝ} {fuel : Nat} {a0 : Int}

theorem generate_zero (con : Rnd ℝ (Comp ℝ × Tab ℝ × Env ℝ M)) : generate amu con fuel a0 0 = pure [] := rfl

theorem mark_nil : SameEnd (mark (pure ([] : List α)) (AllIn ([] : List (Set α)))) (pure ()) := by
  intro s s'
  rw [mark_ok]
  constructor
  · rintro ⟨_, -, h⟩
    obtain ⟨-, rfl⟩ := Rnd.pure_ok.mp h
    rfl
  · intro h
    obtain ⟨-, rfl⟩ := Rnd.pure_ok.mp h
    exact ⟨[], .nil, rfl⟩

/-- The fissions of one object, for given choices. -/
theorem generate_law {con : Rnd ℝ (Comp ℝ × Tab ℝ × Env ℝ M)} : ∀ (As : List (Set (Comp ℝ × Frags ℝ M))),
    (∀ A ∈ As, Observable (event amu con fuel a0 fuel) A) →
    Meas (mark (generate amu con fuel a0 As.length) (AllIn As)) ∧
      probIn (generate amu con fuel a0 As.length) (AllIn As) = (As.map (probIn (event amu con fuel a0 fuel))).prod
  | [], _ => by
    rw [probIn_mark]
    refine ⟨mark_nil.meas (meas_pure _), ?_⟩
    exact (mark_nil.prob).trans (prob_pure_self _)
  | A :: As, h => by
    obtain ⟨i1, i2⟩ := generate_law As fun B hB => h B (List.mem_cons_of_mem _ hB)
    have hA := h A List.mem_cons_self
    have hs := sameEnd_cons (event amu con fuel a0 fuel) (generate amu con fuel a0 As.length) A As
    refine ⟨hs.meas (meas_two (local_mark' hA.loc A) hA.mark i1), ?_⟩
    rw [probIn_mark]
    refine (hs.prob).trans ?_
    rw [prob_two (local_mark' hA.loc A) hA.mark i1, ← probIn_mark, ← probIn_mark, i2]
    rfl

variable [Countable κ] {draw : Rnd ℝ κ} {con : κ → Rnd ℝ (Comp ℝ × Tab ℝ × Env ℝ M)}

theorem session_law (hl : Local draw) (hm : Meas draw) (As : List (Set (Comp ℝ × Frags ℝ M)))
    (h : ∀ k, ∀ A ∈ As, Observable (event amu (con k) fuel a0 fuel) A) :
    Meas (mark (session amu draw con fuel a0 As.length) (AllIn As)) ∧
      probIn (session amu draw con fuel a0 As.length) (AllIn As) =
        ∑' k, prob draw k * (As.map (probIn (event amu (con k) fuel a0 fuel))).prod := by
  have e : mark (session amu draw con fuel a0 As.length) (AllIn As) =
      draw >>= fun k => mark (generate amu (con k) fuel a0 As.length) (AllIn As) := mark_after _ _ _
  rw [probIn_mark, e]
  refine ⟨meas_bind hl hm fun k => (generate_law As (h k)).1, ?_⟩
  rw [prob_bind hl hm fun k => (generate_law As (h k)).1]
  refine tsum_congr fun k => ?_
  rw [← probIn_mark, (generate_law As (h k)).2]

theorem generate_length {con : Rnd ℝ (Comp ℝ × Tab ℝ × Env ℝ M)} : ∀ (n : Nat) {s s' : List ℝ} {es : List (Comp ℝ × Frags ℝ M)},
    generate amu con fuel a0 n s = .ok (es, s') → es.length = n := fun n _ _ _ h => (generate_ok n h).1

theorem local_generate {con : Rnd ℝ (Comp ℝ × Tab ℝ × Env ℝ M)} (h : Local (event amu con fuel a0 fuel)) : ∀ n, Local (generate amu con fuel a0 n)
  | 0 => local_pure _
  | n + 1 => local_bind h fun _ => local_bind (local_generate h n) fun _ => local_pure _

theorem separate_law (hl : Local draw) (hm : Meas draw) : ∀ (As : List (Set (Comp ℝ × Frags ℝ M))),
    (∀ k, Local (event amu (con k) fuel a0 fuel)) → (∀ k, ∀ A ∈ As, Observable (event amu (con k) fuel a0 fuel) A) →
    Meas (mark (separate amu draw con fuel a0 As.length) (AllIn As)) ∧
      probIn (separate amu draw con fuel a0 As.length) (AllIn As) =
        (As.map fun A => ∑' k, prob draw k * probIn (event amu (con k) fuel a0 fuel) A).prod
  | [], _, _ => by
    rw [probIn_mark]
    exact ⟨mark_nil.meas (meas_pure _), (mark_nil.prob).trans (prob_pure_self _)⟩
  | A :: As, h0, h => by
    obtain ⟨i1, i2⟩ := separate_law hl hm As h0 fun k B hB => h k B (List.mem_cons_of_mem _ hB)
    obtain ⟨j1, j2⟩ := session_law (amu := amu) (fuel := fuel) (a0 := a0) (con := con) hl hm [A] fun k B hB => by
      obtain rfl := List.mem_singleton.mp hB
      exact h k B List.mem_cons_self
    have hlen : ∀ s es s', session amu draw con fuel a0 1 s = .ok (es, s') → es.length = 1 := by
      intro s es s' hs
      obtain ⟨k, s1, -, hs⟩ := Rnd.bind_ok.mp hs
      exact generate_length 1 hs
    have hs := sameEnd_append (separate amu draw con fuel a0 As.length) A As hlen
    have hloc : Local (mark (session amu draw con fuel a0 1) (AllIn [A])) :=
      local_mark' (local_bind hl fun k => local_generate (h0 k) 1) _
    refine ⟨hs.meas (meas_two hloc j1 i1), ?_⟩
    rw [probIn_mark]
    refine (hs.prob).trans ?_
    rw [prob_two hloc j1 i1, ← probIn_mark, ← probIn_mark, i2]
    have : probIn (session amu draw con fuel a0 1) (AllIn [A]) = ∑' k, prob draw k * probIn (event amu (con k) fuel a0 fuel) A := by
      refine j2.trans (tsum_congr fun k => ?_)
      simp
    rw [this]
    rfl

end

end CGMF.Law

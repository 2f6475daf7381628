import Verif.Spec.Fresh
import Verif.Proofs.Stale
import Verif.Props.Cascade

/-!
# C116: the decay of a fragment does not depend on earlier decays
-/

namespace CGMF.Props

open CGMF CGMF.Grid CGMF.HF CGMF.MC

variable {K : Type} [Field K] [LinearOrder K] [IsStrictOrderedRing K]

/-- **C116**, one fragment: two programs whose arrays hold different histories, time stamps, spin ranges and energies, decay the same
fragment with the same random numbers.  Both finish, stop the process, or are undefined together; when they finish, particles,
record and the remaining random numbers are the same. -/
theorem C116_fragment (b : Job K) (hb : b.Sound) (st st' : St K) (hts : st.ts.length = st'.ts.length) (stale stale' : Nat → K)
    (nn ng ni : Nat) (s : List K) :
    (do let x ← b.run st stale; pure (visible nn ng ni x)) s = (do let x ← b.run st' stale'; pure (visible nn ng ni x)) s := by
  have h := fragment_alike hb.room hb.width hb.spins hb.phys hb.levels hts rfl stale stale' b.e b.j b.p s
  rw [Rnd.bind_run, Rnd.bind_run]
  unfold Job.run
  rcases h1 : fragment b.tb b.par st stale b.z b.a b.e b.j b.p s with ⟨x, t⟩ | _ | _ | _ <;>
    rcases h2 : fragment b.tb b.par st' stale' b.z b.a b.e b.j b.p s with ⟨y, u⟩ | _ | _ | _ <;> rw [h1, h2] at h <;>
    first
    | exact h.elim
    | rfl
    | skip
  obtain ⟨h3, h4⟩ := h
  simp only at h3 h4
  subst h4
  simp only [visible, h3.1, record_alike nn ng ni h3]

/-- **C116**, a whole run: decaying any list of fragments in one program gives the same as decaying each of them in a program of
its own, with the random numbers continued. -/
theorem C116_run (nn ng ni : Nat) (st0 : St K) (e0 : Nat → K) (l : List (Job K × (Nat → K))) (hl : ∀ b ∈ l, b.1.Sound) (st : St K)
    (hts : st.ts.length = st0.ts.length) : oneProgram nn ng ni l st = ownPrograms nn ng ni st0 e0 (l.map Prod.fst) := by
  have key : ∀ (l : List (Job K × (Nat → K))) (st : St K), (∀ b ∈ l, b.1.Sound) → st.ts.length = st0.ts.length →
      AlikeAll (fun x y => x = y) (oneProgram nn ng ni l st) (ownPrograms nn ng ni st0 e0 (l.map Prod.fst)) := by
    intro l
    induction l with
    | nil => intro st _ _; exact AlikeAll.pure rfl
    | cons x l ih =>
      intro st hl hts
      obtain ⟨b, stale⟩ := x
      have hb := hl _ (List.mem_cons_self ..)
      rw [oneProgram, List.map_cons, ownPrograms]
      refine (fragment_alike hb.room hb.width hb.spins hb.phys hb.levels hts rfl stale e0 b.e b.j b.p).bind fun x y hxy => ?_
      refine (ih x (fun b hb => hl b (List.mem_cons_of_mem _ hb)) hxy.2.1).bind fun r r' hr => AlikeAll.pure ?_
      simp only [visible, hxy.1, record_alike nn ng ni hxy, hr]
  funext s
  have h := key l st hl hts s
  rcases h1 : oneProgram nn ng ni l st s with ⟨x, t⟩ | _ | _ | _ <;>
    rcases h2 : ownPrograms nn ng ni st0 e0 (l.map Prod.fst) s with ⟨y, u⟩ | _ | _ | _ <;> rw [h1, h2] at h <;>
    first
    | exact h.elim
    | rfl
    | skip
  obtain ⟨h3, h4⟩ := h
  simp only at h3 h4
  rw [h3, h4]

/-! ## Example: two fragments of an event -/

namespace FreshDemo

/-- The fragment of the other examples. -/
def job : Job ℚ := ⟨Demo.tb, Demo.par, 50, 132, 10, 1, 1⟩

/-- A lighter fragment. -/
def job' : Job ℚ := ⟨Demo.tb, Demo.par, 50, 120, 3, 0, -1⟩

theorem sound (b : Job ℚ) (h1 : b.tb = Demo.tb) (h2 : b.par = Demo.par) : b.Sound := by
  refine ⟨by rw [h1]; decide, by rw [h2]; decide, by rw [h2]; decide, ?_, ?_⟩
  · intro c e
    rw [h2]
    exact ⟨fun _ _ => zero_le_one, fun _ _ => zero_le_one, fun _ _ _ => zero_le_one, fun _ _ _ => zero_le_one,
      fun _ _ => zero_le_one, fun _ _ => zero_le_one⟩
  · intro k
    rw [h1]
    show Demo.levels _ ≠ []
    unfold Demo.levels
    split <;> exact List.cons_ne_nil _ _

/-- Arrays full of old entries. -/
def dirty : St ℚ := ⟨[⟨.gamma, 7, ⟨3, 1, 2, 1, 4, true⟩⟩], List.replicate 50 9, fun _ => 2⟩

example : job.Sound ∧ job'.Sound := ⟨sound _ rfl rfl, sound _ rfl rfl⟩

/-- The old entries do not show. -/
example : (do let x ← job.run dirty (fun _ => 5); pure (visible 10 50 50 x)) Demo.draws =
    (do let x ← job.run Demo.st (fun _ => 0); pure (visible 10 50 50 x)) Demo.draws :=
  C116_fragment job (sound _ rfl rfl) dirty Demo.st rfl _ _ 10 50 50 Demo.draws

/-- The first fragment emits a neutron and two photons, the second two photons. -/
def draws : List ℚ := Demo.draws ++ Demo.draws ++ Demo.draws

example : (match oneProgram 10 50 50 [(job, fun _ => 5), (job', fun _ => 1)] dirty draws with
    | .ok (r, _) => r.map Prod.snd
    | _ => []) = (match ownPrograms 10 50 50 Demo.st (fun _ => 0) [job, job'] draws with
    | .ok (r, _) => r.map Prod.snd
    | _ => []) := by
  rw [C116_run 10 50 50 Demo.st (fun _ => 0) _ ?_ dirty rfl]
  · rfl
  · intro b hb
    simp only [List.mem_cons, List.not_mem_nil, or_false] at hb
    rcases hb with rfl | rfl
    · exact sound _ rfl rfl
    · exact sound _ rfl rfl

/-- The records of the two fragments. -/
def records : Option (List (Res (Rec ℚ))) :=
  match oneProgram 10 50 50 [(job, fun _ => 5), (job', fun _ => 1)] dirty draws with
  | .ok x => some (x.1.map Prod.snd)
  | _ => none

example : records = some [.ok ⟨[13 / 6], [(5 / 6, 0), (1, 8 / 5)], []⟩, .ok ⟨[], [(51 / 100, 0), (249 / 100, 0)], []⟩] := by
  decide +kernel

end FreshDemo

end CGMF.Props

import Verif.Model.Mixed
import Verif.Props.Demo
import Verif.Tactics
import Mathlib.Data.Rat.Floor

/-!
# C132: calls of `cgm` and of fission events in one process

The claim is that every call is made under the window it is entitled to (`ownWindow`): an event its own, `cgm` none.
-/

namespace CGMF.Props

open CGMF.MC CGMF.Grid CGMF.HF CGMF.Driver CGMF.Mixed CGMF.CgmApi

section
variable {K : Type} [Field K] [LinearOrder K] [FloorRing K] {Ev Y : Type}
variable (c : Const K) (genE : Reaction K → K → Rnd K Ev) (genY : Reaction K → Rnd K Y)

/-- The window a call is entitled to: an event its own if positive, `cgm` none. -/
def ownWindow : Ask K → K
  | .event _ timew => if 0 < timew then timew else -1
  | _ => -1

/-- Calls in sequence, each under the window given by `w`. -/
def underWindows (w : Ask K → K) : List (Ask K) → Rnd K (List (Answer K Ev Y))
  | [] => pure []
  | a :: as => do
    let r ← answer c genE genY (w a) a
    let rs ← underWindows w as
    pure (r :: rs)

/-- A call of `cgm` or of a fission event. -/
def isDecay : Ask K → Bool
  | .yields _ => false
  | _ => true

/-- The window in force in a process: that of the first call other than yields, if it is an event with a positive window. -/
def processWindow (as : List (Ask K)) : K :=
  match as.find? isDecay with
  | some a => ownWindow a
  | none => -1

theorem enter_window_after (g : Globals K) (hg : g.first = false) (a : Ask K) : g.enter a = g := by
  cases a with
  | cgm a => simp only [Globals.enter]; cases g; simp_all
  | event rx t => simp [Globals.enter, hg]
  | yields rx => rfl

theorem process_after (g : Globals K) (hg : g.first = false) (as : List (Ask K)) :
    process c genE genY g as = underWindows c genE genY (fun _ => g.window) as := by
  induction as with
  | nil => rfl
  | cons a as ih => simp only [process, underWindows, enter_window_after g hg, ih]

/-- **What a process returns, exactly**: for every sequence of calls, each call is made under one and the same window, that of the
first call other than yields if it is a fission event with a positive window, and none otherwise. -/
theorem C132_exact (as : List (Ask K)) :
    process c genE genY Globals.init as = underWindows c genE genY (fun _ => processWindow as) as := by
  induction as with
  | nil => rfl
  | cons a as ih =>
    cases a with
    | cgm a =>
      simp only [process, underWindows]
      rw [process_after c genE genY _ rfl]
      rfl
    | event rx t =>
      simp only [process, underWindows]
      rw [process_after c genE genY _ rfl]
      rfl
    | yields rx =>
      have e : processWindow (Ask.yields rx :: as) = processWindow as := by simp [processWindow, isDecay]
      simp only [process, underWindows, e]
      rw [show (Globals.init (K := K)).enter (.yields rx) = Globals.init from rfl, ih]
      rfl

theorem underWindows_congr {w w' : Ask K → K} : ∀ as : List (Ask K), (∀ a ∈ as, isDecay a = true → w a = w' a) →
    underWindows c genE genY w as = underWindows c genE genY w' as := by
  intro as
  induction as with
  | nil => intro _; rfl
  | cons a as ih =>
    intro h
    have ha : answer c genE genY (w a) a = answer c genE genY (w' a) a := by
      cases a with
      | cgm s => rw [h _ (by simp) rfl]
      | event rx t => rw [h _ (by simp) rfl]
      | yields rx => rfl
    simp only [underWindows, ha, ih (fun b hb => h b (by simp [hb]))]

/-- **The claim, and when it holds**: if all calls of `cgm` and all fission events are entitled to the same window, each call returns
what it is entitled to.  (In particular a process with `cgm` is right when no event asks for a window.) -/
theorem C132_partial (as : List (Ask K)) (h : ∀ a ∈ as, ∀ b ∈ as, isDecay a = true → isDecay b = true → ownWindow a = ownWindow b) :
    process c genE genY Globals.init as = underWindows c genE genY ownWindow as := by
  rw [C132_exact]
  refine underWindows_congr c genE genY as fun a ha hd => ?_
  unfold processWindow
  cases hf : as.find? isDecay with
  | none => simp [List.find?_eq_none] at hf; exact absurd hd (by simp [hf a ha])
  | some b => exact h b (List.mem_of_find?_eq_some hf) a ha (List.find?_some hf) hd

/-- **`cgm` first**: no fission event of the process gets the window it asks for. -/
theorem C132_cgm_first (a : Single K) (as : List (Ask K)) :
    process c genE genY Globals.init (.cgm a :: as) = underWindows c genE genY (fun _ => -1) (.cgm a :: as) := by
  rw [C132_exact]; rfl

/-- **Fission event with a window first**: all calls of `cgm` are cut by that window. -/
theorem C132_event_first (rx : Reaction K) {t : K} (ht : 0 < t) (as : List (Ask K)) :
    process c genE genY Globals.init (.event rx t :: as) = underWindows c genE genY (fun _ => t) (.event rx t :: as) := by
  have e : processWindow (Ask.event rx t :: as) = t := by
    show (if 0 < t then t else -1) = t
    simp [ht]
  rw [C132_exact, e]

end

section Ground
variable {K : Type} [Field K] [LinearOrder K]

/-- Without a window a discrete cascade ends in the ground state. -/
theorem cascadeLoop_ground (par : Par K) (hw : ¬ 0 < par.window) (c0 : Nat) (levels : List (Level K)) :
    ∀ fuel i t st s f st' s', cascadeLoop par c0 levels fuel i t st s = .ok ((f, st'), s') → f = 0 := by
  intro fuel
  induction fuel with
  | zero => intro i t st s f st' s' h; simp [cascadeLoop] at h
  | succ fuel ih =>
    intro i t st s f st' s' h
    unfold cascadeLoop at h
    split_ifs at h with h0
    · simp at h; exact h.1.1.symm
    · obtain ⟨l, s1, -, h⟩ := Rnd.bind_ok.1 h
      obtain ⟨t', s2, -, h⟩ := Rnd.bind_ok.1 h
      simp only [hw, false_and, if_false] at h
      obtain ⟨r, s3, -, h⟩ := Rnd.bind_ok.1 h
      cases hp : pickBranch r l.branches with
      | none => rw [hp] at h; exact ih _ _ _ _ _ _ _ h
      | some b =>
        rw [hp] at h
        obtain ⟨x, s4, -, h⟩ := Rnd.bind_ok.1 h
        obtain ⟨ts, s5, -, h⟩ := Rnd.bind_ok.1 h
        obtain ⟨l1, s6, -, h⟩ := Rnd.bind_ok.1 h
        obtain ⟨st1, s7, -, h⟩ := Rnd.bind_ok.1 h
        exact ih _ _ _ _ _ _ _ h

/-- **Without a window the cascade of `cgm` goes down to the ground state**, whatever the levels and the random numbers. -/
theorem C132_ground (par : Par K) (hw : ¬ 0 < par.window) (c0 i : Nat) (st : St K) (s : List K) {f : Nat} {st' : St K} {s' : List K}
    (h : cascade par c0 i st s = .ok ((f, st'), s')) : f = 0 := by
  unfold cascade at h
  split at h
  · cases h
  · exact cascadeLoop_ground par hw c0 _ _ _ _ _ _ _ _ _ h

end Ground

/-! ## Refutation

A nucleus with one excited level at 1 MeV with a half-life of 2, and a level at 3 MeV above it. -/

namespace MixedDemo

/-- Levels: ground state, isomer at 1 MeV, level at 3 MeV. -/
def nuc : Nuc ℚ := ⟨50, 132, [⟨0, 0, 1, 0, []⟩, ⟨1, 4, 1, 2, [⟨0, 1, 1⟩]⟩, ⟨3, 4, 1, 0, [⟨1, 1, 1⟩]⟩], 6, false, 0⟩

/-- A call of `cgm` at the energy of the isomer. -/
def ask : Single ℚ := ⟨{ Demo.par with chain := [nuc] }, Demo.st, [], 1⟩

/-- Constants. -/
def con : Const ℚ := ⟨20, 20, 1 / 1000000, 1 / 1000000, 1⟩

/-- Events and yields without random numbers. -/
def ev : Reaction ℚ → ℚ → Rnd ℚ Unit := fun _ _ => pure ()

/-- Yields. -/
def yl : Reaction ℚ → Rnd ℚ Unit := fun _ => pure ()

/-- Random numbers. -/
def draws : List ℚ := [1 / 2, 1 / 2, 1 / 10, 1 / 2, 1 / 2]

end MixedDemo

open MixedDemo in
/-- **Refutation**: a call of `cgm` that returns two photons in a process of its own returns one after a fission event with a window, with
the same random numbers (the event draws none here). -/
theorem C132_refuted :
    process con ev yl Globals.init [.cgm ask] draws = .ok ([.lines [1, 2] []], []) ∧
    process con ev yl Globals.init [.event ⟨92235, 1⟩ 1, .cgm ask] draws = .ok ([.event (), .lines [2] []], [1 / 2, 1 / 2]) := by
  constructor <;> decide +kernel

open MixedDemo in
/-- The same the other way round: an event that returns the window under which it was made gets none after `cgm`. -/
theorem C132_refuted_event :
    process con (fun _ w => pure w) yl Globals.init [.event ⟨92235, 1⟩ 1] draws = .ok ([.event 1], draws) ∧
    process con (fun _ w => pure w) yl Globals.init [.cgm ask, .event ⟨92235, 1⟩ 1] draws = .ok ([.lines [1, 2] [], .event (-1)], []) := by
  constructor <;> decide +kernel

open MixedDemo in
/-- Yields in between change nothing. -/
example : process con ev yl Globals.init [.yields ⟨92235, 1⟩, .cgm ask] draws = .ok ([.yields (), .lines [1, 2] []], []) := by
  rw [C132_partial con ev yl _ (by
    intro a ha b hb da db
    simp at ha hb
    rcases ha with rfl | rfl <;> rcases hb with rfl | rfl <;> simp_all [isDecay])]
  decide +kernel

end CGMF.Props

import Verif.Model.Chain

/-!
# A small nucleus for the examples

Bins of 1 MeV, separation energy 6 MeV for every nucleus, two levels per nucleus, all transmission
coefficients and densities equal to one.
-/

namespace CGMF.MC.Demo

open CGMF.Grid CGMF.HF

/-- Levels of even and odd nuclei. -/
def levels (a : Int) : List (Level ℚ) :=
  if a % 2 = 0 then [⟨0, 0, 1, 0, []⟩, ⟨1, 4, 1, 2, [⟨0, 1, 9 / 10⟩]⟩]
  else [⟨0, 1, 1, 0, []⟩, ⟨1, 3, -1, 2, [⟨0, 1, 9 / 10⟩]⟩]

/-- Mass excess in MeV; nuclei below mass 100 are not in the table. -/
def tb : Tables ℚ := ⟨fun _ a => if a < 100 then .exit else .ok ((a - 132) * 2), 8, fun _ a => levels a, 10⟩

/-- All transmission coefficients equal. -/
def ph : Phys ℚ := ⟨fun _ _ => 1, fun _ _ => 1, fun _ _ _ => 1, fun _ _ _ => 1, fun _ => 1, fun _ _ => 1,
  fun _ => 1, fun _ _ => 1⟩

/-- Parameters; the chain is replaced by `fragment`. -/
def par : Par ℚ := ⟨1, 20, 3, 100, 1 / 50, 10, fun r => 1 - r, [], fun _ _ => ph⟩

/-- Initial state. -/
def st : St ℚ := ⟨[], List.replicate 50 0, fun _ => 0⟩

/-- Draws. -/
def draws : List ℚ := [9 / 10, 1 / 3, 1, 1 / 5, 4 / 5, 3 / 4, 1 / 10, 99 / 100, 1 / 7, 1 / 2, 1 / 2, 1 / 2, 1 / 2, 1 / 2, 1 / 2]

/-- The run used in the examples. -/
def run : Out (St ℚ × List ℚ) := fragment tb par st (fun _ => 0) 50 132 10 1 1 draws

/-- Its record, if the decay succeeds. -/
def recOf : Out (St ℚ × List ℚ) → Option (Res (Rec ℚ))
  | .ok x => some (record 10 50 50 x.1)
  | _ => none

theorem run_rec : recOf run = some (.ok ⟨[13 / 6], [(5 / 6, 0), (1, 8 / 5)], []⟩) := by decide +kernel

/-- The decay succeeds with one neutron and two photons. -/
theorem run_ok : ∃ st' s', run = .ok (st', s') ∧
    record 10 50 50 st' = .ok ⟨[13 / 6], [(5 / 6, 0), (1, 8 / 5)], []⟩ := by
  have h := run_rec
  unfold recOf at h
  split at h
  · rename_i x hx
    exact ⟨x.1, x.2, hx, by simpa using h⟩
  · cases h

end CGMF.MC.Demo

import Verif.Model.Overflow

/-! # Totals of a run, for C138 -/

namespace CGMF.Driver

variable {K : Type _}

/-- The totals over a list of events. -/
def totalsOf (evs : List (View K)) : Counts :=
  { aL := (evs.map (·.aL)).sum, zL := (evs.map (·.zL)).sum, aH := (evs.map (·.aH)).sum, zH := (evs.map (·.zH)).sum,
    nuL := (evs.map fun e => (e.nuL : Int)).sum, nuH := (evs.map fun e => (e.nuH : Int)).sum,
    nuPre := (evs.map fun e => (e.nuPre : Int)).sum, nuTot := (evs.map fun e => ((e.nuL + e.nuH + e.nuPre : Nat) : Int)).sum,
    nugL := (evs.map fun e => (e.nugL : Int)).sum, nugH := (evs.map fun e => (e.nugH : Int)).sum,
    nugTot := (evs.map fun e => ((e.nugL + e.nugH : Nat) : Int)).sum }

/-- Every total is at most `m`. -/
def Counts.AtMost (m : Int) (c : Counts) : Prop :=
  c.aL ≤ m ∧ c.zL ≤ m ∧ c.aH ≤ m ∧ c.zH ≤ m ∧ c.nuL ≤ m ∧ c.nuH ≤ m ∧ c.nuPre ≤ m ∧ c.nuTot ≤ m ∧ c.nugL ≤ m ∧ c.nugH ≤ m ∧ c.nugTot ≤ m

/-- Masses and charges are not negative. -/
def Physical (e : View K) : Prop := 0 ≤ e.aL ∧ 0 ≤ e.zL ∧ 0 ≤ e.aH ∧ 0 ≤ e.zH

end CGMF.Driver

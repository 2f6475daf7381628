import Verif.Model.Driver

/-!
# The whole numbers of the driver as 32-bit `int`

utils/cgmf/cgmf.cpp: the counters of a run (44-46) are `int`, so are the number of events and the seed. A sum or product
outside the range of `int` is undefined behaviour (`ub`). `Model/Driver.lean` has the same bookkeeping with whole numbers
of any size. MPI_Reduce with MPI_INT and MPI_SUM adds the counters of the ranks; its result outside the range is no number
either (`ub`), the order of the additions is that of the ranks.
-/

namespace CGMF.Driver

/-- An `int` result. -/
def int32 (x : Int) : Res Int := if -2147483648 ≤ x ∧ x ≤ 2147483647 then .ok x else .ub

/-- The counters (44-46). -/
structure Counts where
  aL : Int
  zL : Int
  aH : Int
  zH : Int
  nuL : Int
  nuH : Int
  nuPre : Int
  nuTot : Int
  nugL : Int
  nugH : Int
  nugTot : Int
  deriving DecidableEq, Repr

/-- All zero (44-46). -/
def Counts.zero : Counts := ⟨0, 0, 0, 0, 0, 0, 0, 0, 0, 0, 0⟩

variable {K : Type _}

/-- The counters in `recordEvent` (132-137, 155-162, 183-189). -/
def record32 (s : Counts) (e : View K) : Res Counts := do
  let aL ← int32 (s.aL + e.aL)
  let zL ← int32 (s.zL + e.zL)
  let aH ← int32 (s.aH + e.aH)
  let zH ← int32 (s.zH + e.zH)
  let nuL ← int32 (s.nuL + e.nuL)
  let nuH ← int32 (s.nuH + e.nuH)
  let nuPre ← int32 (s.nuPre + e.nuPre)
  let two ← int32 (nuL + nuH)
  let nuTot ← int32 (two + nuPre)
  let nugL ← int32 (s.nugL + e.nugL)
  let nugH ← int32 (s.nugH + e.nugH)
  let nugTot ← int32 (nugL + nugH)
  pure ⟨aL, zL, aH, zH, nuL, nuH, nuPre, nuTot, nugL, nugH, nugTot⟩

/-- The events of one rank (90-99). -/
def recordAll32 (s : Counts) : List (View K) → Res Counts
  | [] => .ok s
  | e :: es => (record32 s e).bind fun s' => recordAll32 s' es

/-- Two ranks (217-309). -/
def Counts.add32 (a b : Counts) : Res Counts := do
  let aL ← int32 (a.aL + b.aL)
  let zL ← int32 (a.zL + b.zL)
  let aH ← int32 (a.aH + b.aH)
  let zH ← int32 (a.zH + b.zH)
  let nuL ← int32 (a.nuL + b.nuL)
  let nuH ← int32 (a.nuH + b.nuH)
  let nuPre ← int32 (a.nuPre + b.nuPre)
  let nuTot ← int32 (a.nuTot + b.nuTot)
  let nugL ← int32 (a.nugL + b.nugL)
  let nugH ← int32 (a.nugH + b.nugH)
  let nugTot ← int32 (a.nugTot + b.nugTot)
  pure ⟨aL, zL, aH, zH, nuL, nuH, nuPre, nuTot, nugL, nugH, nugTot⟩

/-- All ranks: the counters of every rank, and their sums (217-309). -/
def reduce32 (s : Counts) : List (List (View K)) → Res Counts
  | [] => .ok s
  | r :: rs => (recordAll32 Counts.zero r).bind fun c => (s.add32 c).bind fun s' => reduce32 s' rs

/-- The counters that enter the summary and the number of events by which they are divided (311). -/
def counts32 (ranks : List (List (View K))) (n : Nat) : Res (Counts × Int) :=
  (reduce32 Counts.zero ranks).bind fun c => (int32 ((ranks.length : Int) * n)).bind fun m => .ok (c, m)

/-- The seed of event `i` of rank `ip` (91): `i+ip*nevents+startingEvent`. -/
def seed32 (start : Int) (n ip i : Nat) : Res Int :=
  (int32 ((ip : Int) * n)).bind fun p => (int32 (i + p)).bind fun q => int32 (q + start)

end CGMF.Driver

import Mathlib.Algebra.Order.Field.Basic
import Verif.Model.Basics

/-!
# The command-line driver: random generator, library globals, event loop, run summary

Model of libcgmf/include/rngcgm.h, of the process-wide state of the library that outlives an event
(`firstcalc`, the coincidence window, the installed generator) and of utils/cgmf/cgmf.cpp.

Simplifications: `int` seeds and counters do not overflow; MPI ranks are separate processes, each
with a fresh library state; an MPI sum-reduction is the exact sum over ranks.  What happens inside
one event is a parameter `gen`: a function of the reaction, of the coincidence window in force and
of the generator state, returning the event and the advanced generator state.  That no
other library state influences an event is an assumption recorded in DESIGN.md.
-/

namespace CGMF.Driver

/-! ## Random generator -/

/-- A random engine (`std::mt19937` with `uniform_real_distribution`): default state, state after
seeding, one draw. -/
structure Engine (S K : Type _) where
  default : S
  seeded : Int → S
  next : S → K × S

/-- rngcgm.h:31-47 `UniformRNG`: recorded seed and engine state. -/
structure Rng (S : Type _) where
  seed : Int
  gen : S
  deriving DecidableEq

/-- rngcgm.h:37-40: the constructor records the seed, but `dist` and `gen` in its body are local
variables, so the member engine keeps its default state. -/
def Rng.new {S K} (E : Engine S K) (s : Int) : Rng S := ⟨s, E.default⟩

/-- rngcgm.h:41-44. -/
def Rng.setSeed {S K} (E : Engine S K) (_r : Rng S) (s : Int) : Rng S := ⟨s, E.seeded s⟩

/-- rngcgm.h:45 `operator()`. -/
def Rng.draw {S K} (E : Engine S K) (r : Rng S) : K × Rng S :=
  ((E.next r.gen).1, ⟨r.seed, (E.next r.gen).2⟩)

/-- The first `n` draws. -/
def Rng.draws {S K} (E : Engine S K) : Nat → Rng S → List K
  | 0, _ => []
  | n + 1, r => (r.draw E).1 :: Rng.draws E n (r.draw E).2

/-- A caller's use of one generator object: draw a number (`operator()`, rngcgm.h:45) or reseed
(`set_seed`, rngcgm.h:41-44). -/
inductive RngOp where
  | draw
  | setSeed (s : Int)
  deriving DecidableEq

/-- Run a history of calls on a generator, collecting the numbers drawn. -/
def Rng.run {S K} (E : Engine S K) : List RngOp → Rng S → List K × Rng S
  | [], r => ([], r)
  | .draw :: ops, r =>
    let (x, r') := r.draw E
    let (xs, r'') := Rng.run E ops r'
    (x :: xs, r'')
  | .setSeed s :: ops, r => Rng.run E ops (r.setSeed E s)

/-! ## Library state and event construction -/

/-- Process-wide library state: cgmfEvents.cpp `firstcalc`, specmc.cpp:64
`time_coincidence_window`, cgmfEvents.cpp:55 `rng_cgm` (a copy of the caller's generator). -/
structure Lib (S K : Type _) where
  firstcalc : Bool
  window : K
  rng : Option (Rng S)
  deriving DecidableEq

/-- State at process start (cgmfEvents.cpp `static bool firstcalc = true`, specmc.cpp:64). -/
def Lib.init {S K} [Field K] : Lib S K := ⟨true, -1, none⟩

/-- cgmfEvents.cpp:56-61 `set_rng`: stores a copy. -/
def setRng {S K} (l : Lib S K) (r : Rng S) : Lib S K := { l with rng := some r }

/-- A reaction: target id and incident energy. -/
structure Reaction (K : Type _) where
  zaid : Int
  einc : K
  deriving DecidableEq

/-- cgmfEvents.cpp:388-392: the window is installed only by the first event of the process and
only if positive. -/
def windowAfter {S K} [Field K] [LinearOrder K] (l : Lib S K) (timew : K) : K :=
  if l.firstcalc then (if timew > 0 then timew else l.window) else l.window

/-- cgmfEvents.cpp:369-513, `cgmfEvent(isotope, eng, time, timew)` seen from outside.  Calling an
empty `std::function` (no generator installed) throws: `exit`. -/
def newEvent {S K Ev} [Field K] [LinearOrder K]
    (gen : Reaction K → K → S → Ev × S) (l : Lib S K) (rx : Reaction K) (timew : K) :
    Res (Ev × Lib S K) :=
  match l.rng with
  | none => .exit
  | some r =>
    let w := windowAfter l timew
    let (ev, s') := gen rx w r.gen
    .ok (ev, { firstcalc := false, window := w, rng := some ⟨r.seed, s'⟩ })

/-! ## Event loop of `main` -/

/-- cgmf.cpp:91: seed of event `i` on rank `ip`. -/
def seedOf (nevents startingEvent : Int) (ip i : Int) : Int := i + ip * nevents + startingEvent

/-- cgmf.cpp:90-98, the loop body for indices `i, i+1, ...` (`n` of them); returns the list of
events in the order they are printed. -/
def eventLoop {S K Ev} [Field K] [LinearOrder K] (E : Engine S K)
    (gen : Reaction K → K → S → Ev × S) (rx : Reaction K) (timew : K) (nevents start ip : Int) :
    Nat → Int → Rng S → Lib S K → Res (List Ev)
  | 0, _, _, _ => .ok []
  | n + 1, i, rng, l => do
    let rng := rng.setSeed E (seedOf nevents start ip i)
    let l := setRng l rng
    let (ev, l) ← newEvent gen l rx timew
    let rest ← eventLoop E gen rx timew nevents start ip n (i + 1) rng l
    pure (ev :: rest)

/-- cgmf.cpp:60-111 on rank `ip` with `nevents ≥ 0`, up to the printed events. -/
def runRank {S K Ev} [Field K] [LinearOrder K] (E : Engine S K)
    (gen : Reaction K → K → S → Ev × S) (rx : Reaction K) (timew : K) (nevents : Nat)
    (start : Int) (ip : Int) : Res (List Ev) :=
  eventLoop E gen rx timew nevents start ip nevents 0 (Rng.new E 1) Lib.init

/-- cgmf.cpp:414-422: validation of the coincidence window. -/
def checkWindow {K} [Field K] [LinearOrder K] (w : K) : Res Unit :=
  if w < 0 then (if w ≠ -1 then .exit else .ok ()) else .ok ()

/-- cgmf.cpp:93: the progress test, `none` when a C++ integer division by zero would occur.
`&&` is short-circuit, so the modulus is evaluated only when `nevents >= 1000`. -/
def progressTest (nevents i ip : Int) : Res Bool :=
  if nevents ≥ 1000 then
    (if nevents.tdiv 100 = 0 then .ub
     else if (i + 1).tmod (nevents.tdiv 100) = 0 then .ok (decide (ip = 0)) else .ok false)
  else .ok false

/-- cgmf.cpp:407-412: output file name of rank `ip` (`rank` is its decimal representation). -/
def outName (nevents : Int) (user rank : List Char) : List Char :=
  (if user = [] then
    (if nevents > 0 then "histories.cgmf".toList else "yields.cgmf".toList) else user)
    ++ ('.' :: rank)

/-! ## Run summary -/

/-- An event as the driver sees it, through its getters. -/
structure View (K : Type _) where
  aL : Int
  zL : Int
  aH : Int
  zH : Int
  keL : K
  keH : K
  xeL : K
  xeH : K
  jL : K
  jH : K
  nuL : Nat
  nuH : Nat
  nuPre : Nat
  cmN : Int → K
  labN : Int → K
  preN : Int → K
  nugL : Nat
  nugH : Nat
  phE : Int → K

/-- The global accumulators, cgmf.cpp:44-55. -/
structure Sums (K : Type _) where
  aL : Int
  aH : Int
  zL : Int
  zH : Int
  nuL : Int
  nuH : Int
  nuPre : Int
  nuTot : Int
  nugL : Int
  nugH : Int
  nugTot : Int
  keL : K
  keH : K
  tke : K
  xeL : K
  xeH : K
  txe : K
  jL : K
  jH : K
  j : K
  ecmL : K
  ecmH : K
  elabL : K
  elabH : K
  enPre : K
  ecm : K
  eLab : K
  egL : K
  egH : K
  eg : K
  deriving DecidableEq

variable {K : Type _} [Field K] [LinearOrder K]

/-- cgmf.cpp:44-55, initial values. -/
def Sums.zero : Sums K :=
  ⟨0, 0, 0, 0, 0, 0, 0, 0, 0, 0, 0, 0, 0, 0, 0, 0, 0, 0, 0, 0, 0, 0, 0, 0, 0, 0, 0, 0, 0, 0⟩

/-- `for (int j=lo; j<lo+n; j++) acc += get(j);` -/
def accumulate (get : Int → K) : Nat → Int → K → K
  | 0, _, acc => acc
  | n + 1, j, acc => accumulate get n (j + 1) (acc + get j)

/-- cgmf.cpp:124-201 `recordEvent`. -/
def recordEvent (s : Sums K) (e : View K) : Sums K :=
  let aL := s.aL + e.aL
  let zL := s.zL + e.zL
  let aH := s.aH + e.aH
  let zH := s.zH + e.zH
  let keL := s.keL + e.keL
  let keH := s.keH + e.keH
  let tke := keL + keH
  let xeL := s.xeL + e.xeL
  let xeH := s.xeH + e.xeH
  let txe := xeL + xeH
  let jL := s.jL + e.jL
  let jH := s.jH + e.jH
  let j := (jL + jH) / 2
  let nuL := s.nuL + e.nuL
  let nuH := s.nuH + e.nuH
  let nuPre := s.nuPre + e.nuPre
  let nuTot := nuL + nuH + nuPre
  let ecmL := accumulate e.cmN e.nuL 0 s.ecmL
  let elabL := accumulate e.labN e.nuL 0 s.elabL
  let ecmH := accumulate e.cmN e.nuH e.nuL s.ecmH
  let elabH := accumulate e.labN e.nuH e.nuL s.elabH
  let enPre := accumulate e.preN e.nuPre 0 s.enPre
  let ecm := ecmL + ecmH + enPre
  let eLab := elabL + elabH + enPre
  let nugL := s.nugL + e.nugL
  let nugH := s.nugH + e.nugH
  let nugTot := nugL + nugH
  let egL := accumulate e.phE e.nugL 0 s.egL
  let egH := accumulate e.phE e.nugH e.nugL s.egH
  let eg := egL + egH
  ⟨aL, aH, zL, zH, nuL, nuH, nuPre, nuTot, nugL, nugH, nugTot, keL, keH, tke, xeL, xeH, txe,
    jL, jH, j, ecmL, ecmH, elabL, elabH, enPre, ecm, eLab, egL, egH, eg⟩

/-- Fieldwise sum of two ranks' accumulators. -/
def Sums.add (a b : Sums K) : Sums K :=
  ⟨a.aL + b.aL, a.aH + b.aH, a.zL + b.zL, a.zH + b.zH, a.nuL + b.nuL, a.nuH + b.nuH,
   a.nuPre + b.nuPre, a.nuTot + b.nuTot, a.nugL + b.nugL, a.nugH + b.nugH, a.nugTot + b.nugTot,
   a.keL + b.keL, a.keH + b.keH, a.tke + b.tke, a.xeL + b.xeL, a.xeH + b.xeH, a.txe + b.txe,
   a.jL + b.jL, a.jH + b.jH, a.j + b.j, a.ecmL + b.ecmL, a.ecmH + b.ecmH, a.elabL + b.elabL,
   a.elabH + b.elabH, a.enPre + b.enPre, a.ecm + b.ecm, a.eLab + b.eLab, a.egL + b.egL,
   a.egH + b.egH, a.eg + b.eg⟩

/-- cgmf.cpp:217-309: every accumulator is sum-reduced to rank 0. -/
def reduce (ranks : List (Sums K)) : Sums K := ranks.foldr Sums.add Sums.zero

/-- The numbers printed by cgmf.cpp:328-357. -/
structure Summary (K : Type _) where
  zL : K
  aL : K
  zH : K
  aH : K
  keL : K
  keH : K
  tke : K
  xeL : K
  xeH : K
  txe : K
  jL : K
  jH : K
  j : K
  nuL : K
  nuH : K
  nuPre : K
  nuTot : K
  ecmL : K
  ecmH : K
  ecmPre : K
  ecmTot : K
  elabL : K
  elabH : K
  elabPre : K
  elabTot : K
  nugL : K
  nugH : K
  nugTot : K
  egL : K
  egH : K
  egTot : K
  deriving DecidableEq

/-- `max(count,1)` as a divisor. -/
def atLeastOne (n : Int) : K := ((max n 1 : Int) : K)

/-- cgmf.cpp:314-361 on rank 0; `nevents` is the total `np*nevents`. -/
def summary (s : Sums K) (nevents : Int) : Summary K :=
  let n : K := (nevents : K)
  { zL := (s.zL : K) / n, aL := (s.aL : K) / n, zH := (s.zH : K) / n, aH := (s.aH : K) / n,
    keL := s.keL / n, keH := s.keH / n, tke := s.tke / n,
    xeL := s.xeL / n, xeH := s.xeH / n, txe := s.txe / n,
    jL := s.jL / n, jH := s.jH / n, j := s.j / n,
    nuL := (s.nuL : K) / n, nuH := (s.nuH : K) / n, nuPre := (s.nuPre : K) / n,
    nuTot := (s.nuTot : K) / n,
    ecmL := s.ecmL / atLeastOne s.nuL, ecmH := s.ecmH / atLeastOne s.nuH,
    ecmPre := s.enPre / atLeastOne s.nuPre, ecmTot := s.ecm / atLeastOne s.nuTot,
    elabL := s.elabL / atLeastOne s.nuL, elabH := s.elabH / atLeastOne s.nuH,
    elabPre := s.enPre / atLeastOne s.nuPre, elabTot := s.eLab / atLeastOne s.nuTot,
    nugL := (s.nugL : K) / n, nugH := (s.nugH : K) / n, nugTot := (s.nugTot : K) / n,
    egL := s.egL / atLeastOne s.nugL, egH := s.egH / atLeastOne s.nugH,
    egTot := s.eg / atLeastOne s.nugTot }

/-- cgmf.cpp:100 and 318: on rank 0 the summary dereferences the last event, which is null when no
event was generated. -/
def finalSummary (ranks : List (List (View K))) (nevents : Nat) : Res (Summary K) :=
  match ranks with
  | [] => .ub
  | r0 :: _ =>
    if r0.isEmpty then .ub
    else .ok (summary (reduce (ranks.map (fun r => r.foldl recordEvent Sums.zero)))
      ((ranks.length * nevents : Nat) : Int))

end CGMF.Driver

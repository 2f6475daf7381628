import Verif.Model.Lifecycle

/-!
# The memory of an event, array by array

Model of every `new` and `delete` on the path of a fission event: libcgmf/src/FissionFragments.cpp (constructor 84-126, destructor 588-641,
`buildYields` 2204-2300, `readMultichanceFissionData` 5190-5320, `sampleFissionFragments` 1340, 1432), omcalc.cpp 46-59 and 159-166,
stattrans.cpp 26-52, evapinterface.cpp, excinterface.cpp 24-37 and 125-128, exciton.cpp 52-64 and 179-191, specmain.cpp 206-251
(`spectraBinary`), specmc.cpp 77-105, terminate.cpp 60-87, include/structur.h 223-258 (`Nucleus`), cgmfEvents.cpp (189-209, 291-322,
369-524, 533-574, 646-650), ripl2levels.cpp 78-80, 122, 547-558 and the table of temperature ratios (FissionFragments.cpp 1956, 2008).

The heap is that of `Verif.Model.Lifecycle`; there arrays allocated together are one block and those living inside a constructor are left
out, here each array is a block of its own.  What decides which allocations happen (data, random numbers, energies) is a `Choice`.

Simplified: arrays freed by consecutive statements are freed in the order of allocation; contents of the arrays are not represented; the
temporaries of ripl2levels.cpp 138-140, 189-191 (freed in the same loop body) and memory managed by `std::string` and `std::vector` are left out.
-/

namespace CGMF.Mem
open CGMF

/-- A pointer variable: never written, null, or an address. -/
inductive Ptr where
  | garbage
  | null
  | to (n : Nat)
  deriving DecidableEq, Repr

/-- Computations on the heap. -/
def M (α : Type) := Life.Heap → Res (α × Life.Heap)

instance : Monad M where
  pure a := fun h => .ok (a, h)
  bind m k := fun h => (m h).bind fun x => k x.1 x.2

/-- `new`. -/
def new : M Ptr := fun h => .ok (.to h.alloc.1, h.alloc.2)

/-- `delete [] p`: nothing for null, undefined for a pointer never written or a block that is not live. -/
def del : Ptr → M Unit
  | .garbage => fun _ => .ub
  | .null => fun h => .ok ((), h)
  | .to n => fun h => (h.free n).bind fun h => .ok ((), h)

/-- `p != 0`: undefined for a variable never written. -/
def nonnull : Ptr → M Bool
  | .garbage => fun _ => .ub
  | .null => pure false
  | .to _ => pure true

/-- A use of the block: undefined unless it is live. -/
def use : Ptr → M Unit
  | .to n => fun h => (h.deref (some n)).bind fun _ => .ok ((), h)
  | _ => fun _ => .ub

/-- The process stops. -/
def stop {α : Type} : M α := fun _ => .exit

/-- A loop of `new`. -/
def news : Nat → M (List Ptr)
  | 0 => pure []
  | n + 1 => do
    let p ← new
    let ps ← news n
    pure (p :: ps)

/-- A loop of `delete`. -/
def dels : List Ptr → M Unit
  | [] => pure ()
  | p :: ps => do
    del p
    dels ps

/-- `if (p != 0) delete [] p`. -/
def delIf (p : Ptr) : M Unit := do
  if ← nonnull p then del p

/-! ## Choices -/

/-- A block of multichancefission.dat: whether it is that of the target, its number of energies. -/
structure Block where
  target : Bool
  energies : Nat
  deriving DecidableEq, Repr

/-- A step of a cascade (specmain.cpp:206-251): for each final bin and each final level, whether the optical model is entered
(positive energy). -/
structure Step where
  bins : List Bool
  levels : List Bool
  deriving DecidableEq, Repr

/-- Everything outside this model that decides which arrays an event allocates. -/
structure Choice where
  /-- spontaneous fission -/
  sf : Bool
  /-- multichancefission.dat -/
  file : List Block
  /-- the incident energy lies in the tabulated range -/
  inRange : Bool
  /-- `statTotalNeutrons` -/
  nemit : Nat
  /-- number of pre-fission neutrons drawn -/
  npfn : Nat
  /-- a pre-equilibrium neutron is drawn -/
  preeq : Bool
  /-- bins of the evaporation spectrum -/
  evap : List Bool
  /-- bins of the exciton calculation -/
  exc : List Bool
  /-- number of pairs sampled until one is accepted -/
  tries : Nat
  /-- cascades of the two fragments -/
  light : List Step
  heavy : List Step
  /-- multiplicities -/
  nu : Nat
  nug : Nat
  deriving DecidableEq, Repr

/-! ## Calls that return what they take -/

/-- `omCalc`: the early return for energies not positive (omcalc.cpp:45-46), else eight arrays (51-59), freed at the end (159-166). -/
def omCalc (positive : Bool) : M Unit := do
  if positive then
    let ps ← news 8
    dels ps

/-- stattrans.cpp:40-50 and 69-79: the optical model for each bin or level. -/
def transmission : List Bool → M Unit
  | [] => pure ()
  | b :: bs => do
    omCalc b
    transmission bs

/-- specmain.cpp:206-251 `spectraBinary`: `tc`, `td`, their `tran` arrays (MAX_ENERGY_BIN 2500, MAX_LEVELS 200) and `tg` (3). -/
def spectraBinary (s : Step) : M Unit := do
  let tc ← new
  let td ← new
  let tcs ← news 2500
  let tds ← news 200
  let tg ← news 3
  transmission s.bins
  transmission s.levels
  dels tcs
  dels tds
  dels tg
  del tc
  del td

/-- exciton.cpp:52-64, 179-191 `preqExcitonModel`: 2 + 6 * 8 arrays. -/
def excitonModel : M Unit := do
  let wkc ← news 2
  let rest ← news 48
  dels wkc
  dels rest

/-- excinterface.cpp:24-128 `excitonInterface`: one channel (`j` from 1 below MAX_CHANNEL = 2). -/
def excitonInterface (bins : List Bool) : M Unit := do
  let tc ← new
  let tran ← news 2500
  transmission bins
  excitonModel
  dels tran
  del tc

/-! ## The fission fragment object -/

/-- The pointers of `FissionFragments`, and `n_pfn`. -/
structure FF where
  self : Ptr
  sp1 : Ptr
  sp : Ptr
  tc : Ptr
  tran : List Ptr
  barrier : Ptr
  emissprob : Ptr
  grid : Ptr
  spMult : Ptr
  temperatures : Ptr
  levelDensities : Ptr
  levelDensityParameters : Ptr
  npfn : Nat
  deriving DecidableEq, Repr

/-- FissionFragments.cpp:84-90: five pointers are set to null, the others not written. -/
def blank (self : Ptr) : FF :=
  { self := self, sp1 := .garbage, sp := .garbage, tc := .garbage, tran := [], barrier := .null, emissprob := .garbage, grid := .garbage,
    spMult := .null, temperatures := .null, levelDensities := .null, levelDensityParameters := .null, npfn := 0 }

/-- 5190-5320 `readMultichanceFissionData`: the first block of the target is read (`break` at 5304); energies out of range and a missing
target with `nemit > 0` stop the process; a missing target with `nemit = 0` returns without writing `emissprob`. -/
def readMultichance (c : Choice) (f : FF) : M FF :=
  match c.file.find? (·.target) with
  | some b => do
    let barrier ← new
    let emissprob ← new
    let pf ← new
    let energies ← new
    let rows ← news b.energies
    if c.inRange then
      dels rows
      del pf
      del energies
      pure { f with barrier := barrier, emissprob := emissprob }
    else stop
  | none => if 0 < c.nemit then stop else pure f

/-- 2206-2214: one probability for spontaneous fission, else the table. -/
def probabilities (c : Choice) (f : FF) : M FF :=
  if c.sf then do
    let e ← new
    pure { f with emissprob := e }
  else readMultichance c f

/-- 2204-2300, `buildYields` for "Systematics" (the only option in use): emission probabilities, transmission arrays, the number of neutrons
(which reads `emissprob`, 5331-5334), spectra if there are any, `spc` (2 arrays) with pre-equilibrium. -/
def buildYields (c : Choice) (f : FF) : M FF := do
  let f ← probabilities c f
  let tc ← new
  let grid ← new
  let tran ← news 2500
  let f := { f with tc := tc, grid := grid, tran := tran }
  use f.emissprob
  let f := { f with npfn := c.npfn }
  if 0 < c.npfn then
    let sp1 ← new
    let sp ← new
    let f := { f with sp1 := sp1, sp := sp }
    transmission c.evap
    if c.preeq then
      let spc ← news 2
      excitonInterface c.exc
      dels spc
      pure f
    else pure f
  else pure f

/-- `new FissionFragments(...)`. -/
def newFF (c : Choice) : M FF := do
  let self ← new
  buildYields c (blank self)

/-- 5354-5470: with pre-fission neutrons `barrier`, the spectrum and the grid are read. -/
def prefission (f : FF) : M Unit :=
  if 0 < f.npfn then do
    use f.barrier
    use f.sp1
    use f.grid
  else pure ()

/-- One pair: the pre-fission neutrons, then `sampleFissionFragments` (1340, 1432). -/
def samplePair (f : FF) : M Unit := do
  prefission f
  let momentum ← new
  del momentum

/-- 1059-1082: pairs until one is accepted. -/
def samplePairs (f : FF) : Nat → M Unit
  | 0 => pure ()
  | n + 1 => do
    samplePair f
    samplePairs f n

/-- 591-594. -/
def deleteSpectra (f : FF) : M Unit :=
  if 0 < f.npfn then do
    delIf f.sp1
    delIf f.sp
  else pure ()

/-- 595-598. -/
def deleteTran (f : FF) : M Unit := do
  let b ← nonnull f.tc
  if b then
    dels f.tran
    del f.tc

/-- The inner arrays of the four tables that are never made (602-640) are not represented: reaching them is undefined here. -/
def neverMade (p : Ptr) : M Unit := do
  let b ← nonnull p
  if b then (fun _ => .ub)

/-- 588-641, destructor, then the object itself. -/
def deleteFF (f : FF) : M Unit := do
  deleteSpectra f
  deleteTran f
  delIf f.barrier
  delIf f.emissprob
  delIf f.grid
  neverMade f.spMult
  neverMade f.temperatures
  neverMade f.levelDensities
  neverMade f.levelDensityParameters
  del f.self

/-! ## Process-wide memory -/

/-- File-scope variables: `firstcalc`; the tables; `ncl` with the arrays of its nuclei and `spc`; `firstcalcspec`; `tin`, `pin`. -/
structure Glob where
  firstcalc : Bool
  tables : List Ptr
  shared : List Ptr
  firstspec : Bool
  scratch : List Ptr
  deriving DecidableEq, Repr

/-- Start of the process: file-scope pointers are null. -/
def Glob.init : Glob := ⟨true, [], [], true, []⟩

/-- `initialization`: `allLevels`, `zaidIndex`, `numberLevels`, `RTAdata` and the levels of `nuclei` nuclei. -/
def initialization (nuclei : Nat) (g : Glob) : M Glob := do
  let ps ← news (4 + nuclei)
  pure { g with tables := ps }

/-- terminate.cpp:70-87: ten nuclei of 2 + 2 * 2500 + 5 arrays (structur.h:233-243), `ncl` itself, four spectra. -/
def allocShared (g : Glob) : M Glob := do
  let ps ← news (10 * 5007 + 1 + 4)
  pure { g with shared := ps }

/-- terminate.cpp:60-64. -/
def deleteShared (g : Glob) : M Unit := dels g.shared

/-- specmc.cpp:77-90 `specMCalloc`: `tin.tran`, `pin`, 2500 rows. -/
def specAlloc (g : Glob) : M Glob :=
  if g.firstspec then do
    let ps ← news (2 + 2500)
    pure { g with scratch := ps, firstspec := false }
  else pure g

/-- specmc.cpp:97-105 `specMCcleanup`. -/
def specCleanup (g : Glob) : M Glob :=
  if g.firstspec then pure g else do
    dels g.scratch
    pure { g with firstspec := true }

/-- A use of each block of a list. -/
def uses : List Ptr → M Unit
  | [] => pure ()
  | p :: ps => do
    use p
    uses ps

/-- specmc.cpp:327-: the steps of a cascade. -/
def cascadeSteps : List Step → M Unit
  | [] => pure ()
  | s :: ss => do
    spectraBinary s
    cascadeSteps ss

/-- specmc.cpp:113-203 `specMCMainFission`: scratch arrays, tables and shared arrays are used. -/
def cascade (steps : List Step) (g : Glob) : M Glob := do
  let g ← specAlloc g
  uses g.tables
  uses g.shared
  uses g.scratch
  cascadeSteps steps
  pure g

/-- cgmfEvents.cpp:646-650 `cgmf_cleanup`. -/
def cleanup (g : Glob) : M Glob := do
  dels g.tables
  specCleanup g

/-! ## Events -/

/-- An event object: its multiplicities and arrays.  `none`: never written. -/
structure Ev where
  self : Ptr
  nu : Option Nat
  nug : Option Nat
  pre : Option Nat
  neutrons : List Ptr
  photons : List Ptr
  preNeutrons : List Ptr
  deriving DecidableEq, Repr

/-- `if (count > 0) new ...` (cgmfEvents.cpp:294-321). -/
def arrays (count k : Nat) : M (List Ptr) := if 0 < count then news k else pure []

/-- cgmfEvents.cpp:388-392: the first event initialises the tables. -/
def ensureInit (nuclei : Nat) (g : Glob) : M Glob :=
  if g.firstcalc then do
    let g ← initialization nuclei g
    pure { g with firstcalc := false }
  else pure g

/-- cgmfEvents.cpp:369-512 `cgmfEvent(...)`. -/
def newEvent (nuclei : Nat) (c : Choice) (g : Glob) : M (Ev × Glob) := do
  let self ← new
  let g ← ensureInit nuclei g
  let g ← allocShared g
  let lf ← new
  let hf ← new
  let ff ← newFF c
  samplePairs ff c.tries
  let g ← cascade c.light g
  let g ← cascade c.heavy g
  let ns ← arrays c.nu 9
  let ps ← arrays c.nug 5
  let qs ← arrays ff.npfn 5
  delIf lf
  delIf hf
  deleteFF ff
  pure (⟨self, some c.nu, some c.nug, some ff.npfn, ns, ps, qs⟩, g)

/-- `if (count > 0) delete ...`: undefined when the count was never written. -/
def deleteArrays (count : Option Nat) (ps : List Ptr) : M Unit :=
  match count with
  | none => fun _ => .ub
  | some n => if 0 < n then dels ps else pure ()

/-- `delete event`: `~cgmfEvent` (cgmfEvents.cpp:514-523), `~cgmEvent` (cgmfEvents.cpp:189-209), the object. -/
def deleteEvent (e : Ev) (g : Glob) : M Unit := do
  deleteArrays e.pre e.preNeutrons
  deleteArrays e.nu e.neutrons
  deleteArrays e.nug e.photons
  deleteShared g
  del e.self

/-- `if (event != 0) delete event` (utils/cgmf/cgmf.cpp:94, 104). -/
def deletePrevious (e : Option Ev) (g : Glob) : M Unit :=
  match e with
  | none => pure ()
  | some e => deleteEvent e g

/-- The event loop of the program and of a caller of the library: the previous event is deleted, a new one made
(utils/cgmf/cgmf.cpp:90-98). -/
def events (nuclei : Nat) : List Choice → Option Ev → Glob → M (Option Ev × Glob)
  | [], e, g => pure (e, g)
  | c :: cs, e, g => do
    deletePrevious e g
    let (e, g) ← newEvent nuclei c g
    events nuclei cs (some e) g

/-- The events of the program (utils/cgmf/cgmf.cpp:90-104): `cgmf_cleanup` comes before the last event is deleted. -/
def program (nuclei : Nat) (cs : List Choice) : M Unit := do
  let (e, g) ← events nuclei cs none Glob.init
  let g ← cleanup g
  deletePrevious e g

/-- A caller of the library: events, the last one deleted. -/
def run (nuclei : Nat) (cs : List Choice) (g : Glob) : M Glob := do
  let (e, g) ← events nuclei cs none g
  deletePrevious e g
  pure g

/-- cgmfEvents.cpp:533-574 `cgmfYields(...)`: the base constructors (120-122, 360-364) write no multiplicity, initialise the tables and
allocate the shared arrays; `lf`, `hf`, `ff` are local and not freed. -/
def newYields (nuclei : Nat) (c : Choice) (g : Glob) : M (Ev × Glob) := do
  let self ← new
  let g ← initialization nuclei g
  let g ← allocShared g
  let _ ← new
  let _ ← new
  let ff ← newFF c
  samplePairs ff c.tries
  pure (⟨self, none, none, none, [], [], []⟩, g)

/-- Calls of `cgmf_genfissyields` (cgmfEvents_capi.cpp:78-80), which overwrites the pointer to the previous object without deleting it. -/
def yieldsCalls (nuclei : Nat) : List Choice → Glob → M Glob
  | [], g => pure g
  | c :: cs, g => do
    let (_, g) ← newYields nuclei c g
    yieldsCalls nuclei cs g

end CGMF.Mem

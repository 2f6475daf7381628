import Verif.Model.Basics

/-!
# Object lifetimes

Model of the dynamic memory shared by all events: libcgmf/src/terminate.cpp `cgmAllocateMemory`,
`cgmDeleteAllocated`; constructors and destructors in libcgmf/src/cgmfEvents.cpp; the C interface
libcgmf/src/cgmfEvents_capi.cpp; `cgmf_cleanup` (cgmfEvents.cpp:646-650).

A heap is the list of live blocks.  Groups of arrays that are always allocated and freed together are
one block: (`ncl`, `spc[]`), the per-event particle arrays, the tables read at initialisation
(`allLevels`, `zaidIndex`, `numberLevels`, `RTAdata`).  Blocks allocated and freed inside one
constructor (`lf`, `hf`, `ff`) are not represented; the `tin`/`pin` block of specmc.cpp:78-105 is
guarded by its own flag and is not represented; both are in `Verif.Model.Memory`, array by array.
-/

namespace CGMF.Life

/-- Heap: next fresh address and live blocks. -/
structure Heap where
  next : Nat
  live : List Nat
  deriving DecidableEq, Repr

/-- `new`. -/
def Heap.alloc (h : Heap) : Nat × Heap := (h.next, ⟨h.next + 1, h.next :: h.live⟩)

/-- `delete p` for a non-null pointer: undefined unless the block is live. -/
def Heap.free (h : Heap) (p : Nat) : Res Heap :=
  if p ∈ h.live then .ok { h with live := h.live.erase p } else .ub

/-- `delete p`, null allowed. -/
def Heap.freeOpt (h : Heap) (p : Option Nat) : Res Heap :=
  match p with
  | none => .ok h
  | some p => h.free p

/-- Dereference. -/
def Heap.deref (h : Heap) (p : Option Nat) : Res Unit :=
  match p with
  | none => .ub
  | some p => if p ∈ h.live then .ok () else .ub

/-- An event object: its own block and its particle arrays, if any particle was emitted
(cgmfEvents.cpp:265-296 allocates only for positive multiplicities). -/
structure Obj where
  obj : Nat
  arrs : Option Nat
  deriving DecidableEq, Repr

/-- Globals: heap, `ncl`, tables, `firstcalc` (cgmfEvents.cpp:49, 111). -/
structure G where
  heap : Heap
  ncl : Option Nat
  tables : Option Nat
  first : Bool
  deriving DecidableEq, Repr

/-- Process start. -/
def G.init : G := ⟨⟨0, []⟩, none, none, true⟩

/-- `initialization()`: the tables are allocated; a previous copy, if any, is lost. -/
def initTables (g : G) : G :=
  { g with tables := some g.heap.alloc.1, heap := g.heap.alloc.2 }

/-- terminate.cpp:70-85 `cgmAllocateMemory`: overwrites `ncl`. -/
def allocShared (g : G) : G := { g with ncl := some g.heap.alloc.1, heap := g.heap.alloc.2 }

/-- Particle arrays of a new event. -/
def allocArrs (g : G) (has : Bool) : Option Nat × G :=
  if has then (some g.heap.alloc.1, { g with heap := g.heap.alloc.2 }) else (none, g)

/-- cgmfEvents.cpp:388-392 (and 148-151 for `cgm`): first use initialises the tables. -/
def ensureInit (g : G) : G := if g.first then { initTables g with first := false } else g

/-- `new cgmfEvent(...)` (cgmfEvents.cpp:369-513) and `new cgmEvent(...)` (121-186): object, tables
if needed, shared arrays, a decay that reads the tables, particle arrays. -/
def construct (g : G) (has : Bool) : Res (Obj × G) := do
  let o := g.heap.alloc.1
  let g := { g with heap := g.heap.alloc.2 }
  let g := allocShared (ensureInit g)
  g.heap.deref g.tables
  let (a, g) := allocArrs g has
  pure (⟨o, a⟩, g)

/-- `delete e`: `~cgmfEvent`, then `~cgmEvent` (cgmfEvents.cpp:188-209, 515-524), which frees the
arrays and calls `cgmDeleteAllocated` (terminate.cpp:60-64; the pointers are not reset), then the
object. -/
def destroy (g : G) (e : Obj) : Res G := do
  g.heap.deref (some e.obj)
  let h ← g.heap.freeOpt e.arrs
  let h ← h.freeOpt g.ncl
  let h ← h.free e.obj
  pure { g with heap := h }

/-- `new cgmfYields(...)` (cgmfEvents.cpp:533-574): its base constructor `cgmfEvent()`
(362-366) initialises the tables unconditionally and allocates the shared arrays. -/
def constructYields (g : G) : Res G := do
  let g := { g with heap := g.heap.alloc.2 }
  let g := allocShared (initTables g)
  g.heap.deref g.tables
  pure g

/-- cgmfEvents.cpp:646-650 `cgmf_cleanup`: frees the tables (dereferencing them first,
ripl2levels.cpp:550), without resetting pointers or `firstcalc`. -/
def cleanup (g : G) : Res G := do
  g.heap.deref g.tables
  let h ← g.heap.freeOpt g.tables
  pure { g with heap := h }

/-! ## The C interface -/

/-- cgmfEvents_capi.cpp:20-22: file-scope pointers, initially null. -/
structure C where
  g : G
  cgm : Option Obj
  fev : Option Obj
  deriving DecidableEq, Repr

/-- Process start. -/
def C.init : C := ⟨G.init, none, none⟩

/-- Calls of the C interface; `has` tells whether the generated event emits any particle. -/
inductive Call where
  /-- `cgmf_genfissevent` -/
  | gen (has : Bool)
  /-- `cgm` -/
  | cgm (has : Bool)
  /-- `cgmf_genfissyields` -/
  | yields
  /-- any `cgmf_get...` -/
  | get
  /-- `cgmf_clean` -/
  | clean
  deriving DecidableEq, Repr

/-- `if (p != 0) delete p;` -/
def deleteIf (g : G) (p : Option Obj) : Res G :=
  match p with
  | none => .ok g
  | some e => destroy g e

/-- One call (cgmfEvents_capi.cpp:47-79, 85-168). -/
def call (c : C) : Call → Res C
  | .gen has => do
    let g ← deleteIf c.g c.fev
    let (e, g) ← construct g has
    pure { c with g := g, fev := some e }
  | .cgm has => do
    let g ← deleteIf c.g c.cgm
    let (e, g) ← construct g has
    pure { c with g := g, cgm := some e }
  | .yields => do
    let g ← constructYields c.g
    pure { c with g := g }
  | .get => do
    c.g.heap.deref (c.fev.map Obj.obj)
    pure c
  | .clean => do
    let g ← deleteIf c.g c.fev
    pure { c with g := g }

/-- A history of calls. -/
def runC : List Call → C → Res C
  | [], c => .ok c
  | x :: xs, c => do
    let c ← call c x
    runC xs c

/-! ## The C++ interface -/

/-- A C++ program: events are named by numbers. -/
inductive Op where
  | new (k : Nat) (has : Bool)
  | del (k : Nat)
  | cleanup
  deriving DecidableEq, Repr

/-- State: globals and the caller's event variables. -/
structure P where
  g : G
  vars : List (Nat × Obj)
  deriving DecidableEq, Repr

/-- Process start. -/
def P.init : P := ⟨G.init, []⟩

/-- One operation; deleting a name that holds no event is the caller's error (`ub`). -/
def step (p : P) : Op → Res P
  | .new k has => do
    let (e, g) ← construct p.g has
    pure ⟨g, (k, e) :: p.vars⟩
  | .del k =>
    match p.vars.lookup k with
    | none => .ub
    | some e => do
      let g ← destroy p.g e
      pure ⟨g, p.vars.filter (·.1 ≠ k)⟩
  | .cleanup => do
    let g ← cleanup p.g
    pure { p with g := g }

/-- A program. -/
def runP : List Op → P → Res P
  | [], p => .ok p
  | x :: xs, p => do
    let p ← step p x
    runP xs p

/-- utils/cgmf/cgmf.cpp:90-103: the event loop deletes the previous event before creating the next;
at the end `cgmf_cleanup()` runs before the last event is deleted. -/
def mainProgram : List Bool → List Op
  | [] => [.cleanup]
  | [b] => [.new 0 b, .cleanup, .del 0]
  | b :: bs => .new 0 b :: .del 0 :: mainProgram bs

end CGMF.Life

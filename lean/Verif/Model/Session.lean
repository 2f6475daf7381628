import Verif.Model.Fragments

/-!
# Many fissions from one object, and many objects

libcgmf/src/FissionFragments.cpp: the part of `buildYields` that draws the number of pre-fission neutrons (2240-2269), the loop of
`generateInitialFissionFragmentHistories` (1059-1082); libcgmf/src/cgmfEvents.cpp: `cgmfYields` (533-574) makes one object for all its
fissions, `cgmfEvent` (369-513) one object for each.  The number of pre-fission neutrons and the choice between pre-equilibrium and
evaporation are made by the constructor of the object.
-/

namespace CGMF.Frag

open CGMF.Pre

variable {K : Type} [Field K] [LinearOrder K] [FloorRing K]

/-- `buildYields` 2240-2269: the number of pre-fission neutrons `n_pfn` and, if there are any, `preeq_flag`.  The fraction `f` is
`preeq_fraction()`; a negative one counts as zero.  The loop `while (n_pfn<0)` never repeats, since `number` is not negative. -/
def start (m : Multi K) (f : K) : Rnd K (Int × Bool) := do
  let n ← number m
  if n = 0 then pure (0, false)
  else do
    let r ← Rnd.draw
    pure (n, decide (r ≤ if f < 0 then 0 else f))

/-- `constructYields` (5081-5110) for the choices made by the object. -/
def yieldsFor {M : Type} (mass : Int → Int → Res K) (en : K) (sf : Bool) (c0 : Comp K) (left : Int × Bool → Rnd K K)
    (build : Int × Bool → Comp K → Rnd K (Tab K × Env K M)) (k : Int × Bool) : Rnd K (Comp K × Tab K × Env K M) :=
  construct mass en sf c0 k.1 (left k) (build k)

/-- cgmfEvents.cpp:541-542: one object makes its choices `draw` (the constructor, FissionFragments.cpp:84-126), then generates `N`
fissions; `con` is `constructYields` for these choices. -/
def session {M κ : Type} (amu : K) (draw : Rnd K κ) (con : κ → Rnd K (Comp K × Tab K × Env K M)) (fuel : Nat) (a0 : Int) (N : Nat) :
    Rnd K (List (Comp K × Frags K M)) := do
  let k ← draw
  generate amu (con k) fuel a0 N

/-- cgmfEvents.cpp:401-402, utils/cgmf/cgmf.cpp:90-98: an object for each fission.  Every event has its own seed (91); here the random
numbers of the events follow each other in one sequence. -/
def separate {M κ : Type} (amu : K) (draw : Rnd K κ) (con : κ → Rnd K (Comp K × Tab K × Env K M)) (fuel : Nat) (a0 : Int) :
    Nat → Rnd K (List (Comp K × Frags K M))
  | 0 => pure []
  | n + 1 => do
    let es ← session amu draw con fuel a0 1
    let rest ← separate amu draw con fuel a0 n
    pure (es ++ rest)

end CGMF.Frag

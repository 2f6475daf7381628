import Verif.Model.HF

/-!
# Monte Carlo decay of one fragment

libcgmf/src/specmc.cpp: `specMCMainFission` (113-197), `mcHistoryLoop` (328-421), `mcFindNext`
(427-519), `mcGammaCascade` (525-592), `mcFixedStart` (620-638), `mcRestorePopulation` (644-660),
`mcStoreHistory` (666-692), `recordEmittedParticlesFission` (902-955; the boost that follows is in
Model/Kinematics); libcgmf/src/popinit.cpp `statPopinitSingle` (191-206), `statStoreLevelExcite`
(212-236).  Configuration as shipped: `PERTURB_EXCITATON_ENERGY`, `INCLUDE_INTERNAL_CONVERSION` true,
`EVAPORATION_SPECTRUM` false.

Not represented: the spectrum tallies `spc` and the values `(int)lev.spin` stored in discrete
`MCPoint`s, which nothing reads afterwards (they are 0 here).
-/

namespace CGMF.MC

open CGMF.Grid CGMF.HF

variable {K : Type} [Field K] [LinearOrder K]

/-- mchf.h:22-64 `MCPoint`: nucleus, parity, spin index, bin or level, energy, discrete flag. -/
structure MCPoint (K : Type) where
  n : Nat
  p : Int
  j : Int
  k : Nat
  e : K
  disc : Bool
  deriving DecidableEq, Repr

/-- Particle identifier of a history entry: `gammaray`, `neutron`, `unknown` (conversion electron). -/
inductive Pid where
  | gamma | neutron | ic
  deriving DecidableEq, Repr

/-- mchf.h:70-95 `MCHistory`. -/
structure Hist (K : Type) where
  id : Pid
  ep : K
  mp : MCPoint K
  deriving DecidableEq, Repr

/-- Everything fixed during the decay of one fragment. -/
structure Par (K : Type) where
  /-- `ENERGY_BIN` and `MAX_ENERGY_BIN` -/
  w : K
  nbin : Nat
  /-- `MAX_J` -/
  maxJ : Nat
  /-- `MAX_CASCADE` -/
  cap : Nat
  /-- `CONTINUUM_LOWER_CUT` -/
  cut : K
  /-- time coincidence window -/
  window : K
  /-- `-log(r)/LOG_2` -/
  delay : K → K
  /-- chain of nuclei `ncl[0..nemit]` -/
  chain : List (Nuc K)
  /-- transmission coefficients and densities for a parent nucleus at an energy -/
  phys : Nat → K → Phys K

/-- Mutable state: `hs[0..np-1]`, the global array `gammaTimeStamp`, and `jmax` per nucleus. -/
structure St (K : Type) where
  hs : List (Hist K)
  ts : List K
  jmax : Nat → Int

/-- Point at a discrete level. -/
def levelPoint (c i : Nat) (l : Level K) : MCPoint K := ⟨c, l.parity, 0, i, l.energy, true⟩

/-- specmc.cpp:666-680 `mcStoreHistory`.  The write `hs[np++]` is undefined beyond the array; when the
array becomes full the process stops. -/
def store (par : Par K) (ic : Bool) (m0 m1 : MCPoint K) (st : St K) : Rnd K (St K) := do
  if par.cap ≤ st.hs.length then Rnd.undef else
    let n0 ← Rnd.get par.chain[m0.n]?
    let h : Hist K :=
      if m0.n = m1.n then ⟨if ic then .ic else .gamma, m0.e - m1.e, m0⟩
      else ⟨.neutron, m0.e - m1.e - n0.sn, m0⟩
    if st.hs.length + 1 = par.cap then Rnd.stop else pure { st with hs := st.hs ++ [h] }

/-! ## Next state -/

/-- Cells in the order of the loops of `mcFindNext`: continuum bins from `k0`, spins up to `jmax`, even
before odd parity, then the discrete levels. -/
def cells (k0 ncont : Nat) (jmax : Int) (ndisc : Nat) : List Cell :=
  ((List.range' k0 (ncont - k0)).flatMap fun k =>
    (List.range (jmax + 1).toNat).flatMap fun j : Nat => [.cont k j true, .cont k j false]) ++
  (List.range ndisc).map .disc

/-- The states of `mcFindNext` in loop order with their populations: the parent's (bin 0 skipped),
then, if the neutron channel is open, the daughter's. -/
def candidates (n0 n1 : Nuc K) (m0 m1 : Mesh K) (pops : Pops K) : List ((Bool × Cell) × K) :=
  ((cells 1 m0.ncont pops.jmax0 n0.levels.length).map fun c => ((false, c), popOf pops.g c)) ++
  (if n0.status then
    (cells 0 m1.ncont pops.jmax1 n1.levels.length).map fun c => ((true, c), popOf pops.n c)
   else [])

/-- `s += x; if (s >= r)` over a list: the first entry at which the running sum reaches `r`. -/
def firstReach {α : Type} (r : K) : K → List (α × K) → Option α
  | _, [] => none
  | s, (a, x) :: l => if r ≤ s + x then some a else firstReach r (s + x) l

/-- The point of a cell. -/
def cellPoint (c : Nat) (n : Nuc K) (m : Mesh K) : Cell → Option (MCPoint K)
  | .cont k idx even => some ⟨c, if even then 1 else -1, idx, k, m.exc k, false⟩
  | .disc i => n.levels[i]?.map (levelPoint c i)

/-- specmc.cpp:427-519 `mcFindNext`. -/
def findNext (c0 : Nat) (n0 n1 : Nuc K) (m0 m1 : Mesh K) (pops : Pops K) (p j : Int) :
    Rnd K (MCPoint K) := do
  let r ← Rnd.draw
  match firstReach r 0 (candidates n0 n1 m0 m1 pops) with
  | some (false, c) => Rnd.get (cellPoint c0 n0 m0 c)
  | some (true, c) => Rnd.get (cellPoint n0.next n1 m1 c)
  | none => do
    let i ← forced n0.levels p j
    Rnd.get (n0.levels[i]?.map (levelPoint c0 i))

/-- specmc.cpp:351-363: perturb the energy of a continuum state inside its bin. -/
def perturb (n : Nuc K) (m : Mesh K) (x : MCPoint K) : Rnd K (MCPoint K) :=
  if x.disc then pure x else do
    let top ← Rnd.get n.levels.getLast?
    let emax := if x.k = 0 then x.e else (m.exc (x.k - 1) + m.exc x.k) * (1 / 2)
    let emin := (m.exc (x.k + 1) + m.exc x.k) * (1 / 2)
    let emin := if emin < top.energy then top.energy else emin
    let r ← Rnd.draw
    pure { x with e := emin + (emax - emin) * r }

/-- specmc.cpp:369-404: just above the discrete levels the transition is forced to a level. -/
def lowCut (par : Par K) (n0 : Nuc K) (mcurr x : MCPoint K) : Rnd K (MCPoint K) :=
  if mcurr.n = x.n then do
    let top ← Rnd.get n0.levels.getLast?
    if x.e < top.energy + par.cut ∧ ¬ x.disc then do
      let i ← forced n0.levels mcurr.p mcurr.j
      Rnd.get (n0.levels[i]?.map (levelPoint mcurr.n i))
    else pure x
  else pure x

/-- specmc.cpp:644-660: grid of the daughter, rebuilt only when the neutron channel exists. -/
def daughter (par : Par K) (n0 : Nuc K) (m0 : Mesh K) (e : K) : Rnd K (Nuc K × Mesh K) :=
  if n0.status then do
    let n1 ← Rnd.get par.chain[n0.next]?
    let m1 ← Rnd.lift (setup par.w par.nbin (elmax n1.levels) (e - n0.sn))
    pure (n1, m1)
  else pure (n0, m0)

/-- The nucleus and grid on which a point lies. -/
def side (mcurr x : MCPoint K) (a b : Nuc K × Mesh K) : Nuc K × Mesh K :=
  if mcurr.n = x.n then a else b

/-- One pass of the loop specmc.cpp:336-410. -/
def contStep (par : Par K) (st : St K) (mcurr : MCPoint K) : Rnd K (St K × MCPoint K) := do
  let n0 ← Rnd.get par.chain[mcurr.n]?
  let m0 ← Rnd.lift (setup par.w par.nbin (elmax n0.levels) mcurr.e)
  let d ← daughter par n0 m0 mcurr.e
  if mcurr.j < 0 ∨ (par.maxJ : Int) ≤ mcurr.j then Rnd.undef else
    let pops ← compoundDecay par.maxJ par.w n0 d.1 m0 d.2 (par.phys mcurr.n mcurr.e)
      mcurr.p mcurr.j (st.jmax mcurr.n) (st.jmax n0.next)
    let x ← findNext mcurr.n n0 d.1 m0 d.2 pops mcurr.p mcurr.j
    let nm := side mcurr x (n0, m0) d
    let x ← perturb nm.1 nm.2 x
    let x ← lowCut par n0 mcurr x
    let jm := fun c => if c = mcurr.n then pops.jmax0
      else if n0.status ∧ c = n0.next then pops.jmax1 else st.jmax c
    let st ← store par false mcurr x { st with jmax := jm }
    pure (st, x)

/-- The loop specmc.cpp:336-410; `fuel` bounds the number of passes, `MAX_CASCADE` suffices. -/
def contLoop (par : Par K) : Nat → St K → MCPoint K → Rnd K (St K × MCPoint K)
  | 0, _, _ => fun _ => .more
  | fuel + 1, st, mcurr => do
    let r ← contStep par st mcurr
    if r.2.disc then pure r else contLoop par fuel r.1 r.2

/-! ## Discrete cascade -/

/-- specmc.cpp:561-563: first branch at which the running sum reaches `r`. -/
def pickBranch (r : K) (bs : List (Branch K)) : Option (Branch K) :=
  firstReach r 0 (bs.map fun b => (b, b.branch))

/-- specmc.cpp:551-553: time spent in the level. -/
def stay (par : Par K) (l : Level K) (t : K) : Rnd K K :=
  if 0 < l.halflife then do
    let r ← Rnd.draw
    pure (t + par.delay r * l.halflife)
  else pure t

/-- specmc.cpp:525-592 `mcGammaCascade`; `fuel` bounds the number of passes, each of which consumes a
random number. -/
def cascadeLoop (par : Par K) (c0 : Nat) (levels : List (Level K)) :
    Nat → Nat → K → St K → Rnd K (Nat × St K)
  | 0, _, _, _ => fun _ => .more
  | fuel + 1, i0, t, st =>
    if i0 = 0 then pure (0, st) else do
      let l ← Rnd.get levels[i0]?
      let t ← stay par l t
      if 0 < par.window ∧ par.window < t then pure (i0, st) else do
        let r ← Rnd.draw
        match pickBranch r l.branches with
        | none => cascadeLoop par c0 levels fuel i0 t st
        | some b => do
          let x ← Rnd.draw
          let ts ← Rnd.lift (writeAt st.ts st.hs.length t)
          let l1 ← Rnd.get levels[b.fstate]?
          let st ← store par (decide (b.gratio < x)) (levelPoint c0 i0 l) (levelPoint c0 b.fstate l1)
            { st with ts := ts }
          cascadeLoop par c0 levels fuel b.fstate t st

/-- `mcGammaCascade(c0, i0, spc)`. -/
def cascade (par : Par K) (c0 i0 : Nat) (st : St K) : Rnd K (Nat × St K) := fun s =>
  match par.chain[c0]? with
  | none => .ub
  | some n => cascadeLoop par c0 n.levels (s.length + 1) i0 0 st s

/-- specmc.cpp:417-419, 162-165: the terminal entry. -/
def marker (par : Par K) (c final : Nat) (st : St K) : Rnd K (St K) := do
  let n ← Rnd.get par.chain[c]?
  let l ← Rnd.get n.levels[final]?
  if par.cap ≤ st.hs.length then Rnd.undef else
    pure { st with hs := st.hs ++ [⟨.gamma, 0, levelPoint c final l⟩] }

/-- specmc.cpp:412-414: the cascade runs unless the ground state was reached. -/
def finish (par : Par K) (x : MCPoint K) (st : St K) : Rnd K (Nat × St K) :=
  if 0 < x.k then cascade par x.n x.k st else pure (0, st)

/-- specmc.cpp:328-421 `mcHistoryLoop`, starting with an empty history. -/
def historyLoop (par : Par K) (st : St K) (minit : MCPoint K) : Rnd K (St K) := do
  let r ← contLoop par par.cap { st with hs := [] } minit
  let f ← finish par r.2 r.1
  marker par r.2.n f.1 f.2

/-! ## Start -/

/-- popinit.cpp:212-236 `statStoreLevelExcite`: nearest level, the last one excluded, plus one. -/
def nearest (E : K) : List (Level K) → Nat → K → Nat → Nat
  | [], _, _, k => k
  | l :: ls, i, d, k => if |E - l.energy| < d then nearest E ls (i + 1) |E - l.energy| i
    else nearest E ls (i + 1) d k

/-- Return value of `statStoreLevelExcite`. -/
def startLevel (n : Nuc K) (m : Mesh K) (E : K) : Nat :=
  if n.levels.length = 1 ∧ m.ncont = 0 then 0 else nearest E n.levels.dropLast 0 100 0 + 1

/-- popinit.cpp:191-206 `statPopinitSingle` on cleared populations: `(even, odd)` per spin index.
`jint` is `(int)j0`. -/
def popSingle (maxJ : Nat) (jint p0 : Int) : List (K × K) :=
  (List.range maxJ).map fun j : Nat =>
    if (j : Int) = jint then (if p0 < 0 then (0, 1) else (1, 0)) else (0, 0)

/-- specmc.cpp:626-635 `mcFixedStart`: first populated spin and parity. -/
def fixedStart : List (K × K) → Nat → Option (Int × Int)
  | [], _ => none
  | (ev, od) :: l, j => if 0 < ev then some (1, j) else if 0 < od then some (-1, j)
    else fixedStart l (j + 1)

/-- Start of the decay in the continuum. -/
def contStart (par : Par K) (st : St K) (E : K) (jint p0 : Int) : Rnd K (St K) :=
  match fixedStart (popSingle (K := K) par.maxJ jint p0) 0 with
  | none => Rnd.stop
  | some pj => historyLoop par
      { st with jmax := fun c => if c = 0 then (par.maxJ : Int) - 1 else st.jmax c }
      ⟨0, pj.1, pj.2, 0, E, false⟩

/-- Start of the decay at a discrete level (specmc.cpp:154-167). -/
def discStart (par : Par K) (st : St K) (i : Nat) : Rnd K (St K) := do
  let f ← cascade par 0 i { st with hs := [] }
  marker par 0 f.1 f.2

/-- specmc.cpp:113-197 `specMCMainFission` after the set-up of the chain: the decay history of a
fragment of energy `E`, spin `j0` (`jint = (int)j0`) and parity `p0`. -/
def decay (par : Par K) (st : St K) (E : K) (jint p0 : Int) : Rnd K (St K) := do
  let n0 ← Rnd.get par.chain[0]?
  let m0 ← Rnd.lift (setup par.w par.nbin (elmax n0.levels) E)
  if m0.ncont = 0 then discStart par st (startLevel n0 m0 E) else contStart par st E jint p0

/-! ## Record -/

/-- Append to a C array of the given size. -/
def push {α : Type} (size : Nat) (xs : List α) (x : α) : Res (List α) :=
  if xs.length < size then .ok (xs ++ [x]) else .ub

/-- Local arrays of `recordEmittedParticlesFission`: neutron energies, photon energies with time
stamps, conversion electrons. -/
structure Rec (K : Type) where
  n : List K
  g : List (K × K)
  ic : List K
  deriving DecidableEq, Repr

/-- specmc.cpp:938-943: the time stamp of a photon; zero unless it leaves a discrete level. -/
def stamp (ts : List K) (i : Nat) (h : Hist K) : Res K :=
  if h.mp.disc then readAt ts i else .ok 0

/-- specmc.cpp:933-949: one particle, with array sizes `MAX_NUMBER_NEUTRONS`, `MAX_NUMBER_GAMMAS`,
`MAX_NUMBER_PARTICLES`. -/
def recordOne (nn ng ni : Nat) (ts : List K) (i : Nat) (h : Hist K) (r : Rec K) : Res (Rec K) :=
  match h.id with
  | .neutron => do
    let n ← push nn r.n h.ep
    pure { r with n := n }
  | .gamma => do
    let t ← stamp ts i h
    let g ← push ng r.g (h.ep, t)
    pure { r with g := g }
  | .ic => do
    let ic ← push ni r.ic h.ep
    pure { r with ic := ic }

/-- specmc.cpp:932-950: all particles of the history except the terminal entry. -/
def recordLoop (nn ng ni : Nat) (ts : List K) : Nat → List (Hist K) → Rec K → Res (Rec K)
  | _, [], r => .ok r
  | i, h :: hs, r => do
    let r ← recordOne nn ng ni ts i h r
    recordLoop nn ng ni ts (i + 1) hs r

/-- specmc.cpp:902-955: with the multiplicity checks that follow the loop. -/
def record (nn ng ni : Nat) (st : St K) : Res (Rec K) := do
  let r ← recordLoop nn ng ni st.ts 0 st.hs.dropLast ⟨[], [], []⟩
  if nn < r.n.length ∨ ng < r.g.length then .exit else pure r

end CGMF.MC

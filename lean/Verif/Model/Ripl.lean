import Verif.Model.Levels
import Verif.Model.Rnd

/-!
# Reading the discrete levels

libcgmf/src/ripl2levels.cpp: `readDiscreteLevelData` (60-204), `getDiscreteLevels` (217-243),
`riplFixTransition` (390-440), `riplNormalizeBranch` (445-471), `riplGSonly` (522-546);
libcgmf/src/setup.cpp: `statFixDiscreteLevels` (323-358).

The text of the data file is in `Model/LevelText.lean`: here a file is the list of its nuclei with their level and gamma
records, so the counts `nol` and `ng` are the lengths of the lists (a file whose counts disagree with its
records, or with negative counts, is treated there).  Sizes of the C arrays are parameters:
`mb` = MAX_GAMMA_BRANCH (61), `ml` = MAX_LEVELS (200), `mn` = MAX_NUCLEI (3500).
-/

namespace CGMF.Ripl

variable {K : Type} [Field K] [LinearOrder K]

/-- One line of a gamma record (ripl2levels.cpp:150-153), an entry of the arrays `nf`, `pe`, `ic`. -/
structure Gam (K : Type) where
  nf : Nat
  pe : K
  ic : K
  deriving DecidableEq, Repr

/-- One level record of the file (ripl2levels.cpp:131-153). -/
structure Raw (K : Type) where
  energy : K
  spin2 : Int
  parity : Int
  halflife : K
  gammas : List (Gam K)
  deriving DecidableEq, Repr

/-- The arrays `nf`, `pe`, `ic` after reading (138-153): `max(ng,MAX_GAMMA_BRANCH)` entries, those
without a line in the file being `0, 1.0, 0.0`. -/
def arrays (mb : Nat) (gs : List (Gam K)) : List (Gam K) :=
  gs ++ List.replicate (max gs.length mb - gs.length) ⟨0, 1, 0⟩

/-- `dj = (int)fabs(lev[i].spin - s)` (410, 428) with doubled spins. -/
def djump (a b : Int) : Int := |a - b| / 2

/-- First loop of `riplFixTransition` (407-420): E1 partners among the levels below; the list is
`lev[0..k-1]` from index `i` on. State: arrays, `n`, `dm`. -/
def e1Loop (mb : Nat) (s p : Int) : List (Level K) → Nat → List (Gam K) → Nat → Int →
    Res (List (Gam K) × Nat × Int)
  | [], _, arr, n, dm => .ok (arr, n, dm)
  | l :: ls, i, arr, n, dm =>
    if s = 0 ∧ l.spin2 = 0 then e1Loop mb s p ls (i + 1) arr n dm
    else
      if l.parity ≠ p ∧ djump l.spin2 s ≤ 1 then
        (writeAt arr n ⟨i, 1, 0⟩).bind fun arr' =>
          if n + 1 = mb - 1 then .ok (arr', n + 1, min dm (djump l.spin2 s))
          else e1Loop mb s p ls (i + 1) arr' (n + 1) (min dm (djump l.spin2 s))
      else e1Loop mb s p ls (i + 1) arr n (min dm (djump l.spin2 s))

/-- Second loop of `riplFixTransition` (426-437): the first level at the smallest spin distance. -/
def nearLoop (s dm : Int) : List (Level K) → Nat → List (Gam K) → Res (List (Gam K) × Nat)
  | [], _, arr => .ok (arr, 0)
  | l :: ls, i, arr =>
    if s = 0 ∧ l.spin2 = 0 then nearLoop s dm ls (i + 1) arr
    else if djump l.spin2 s = dm then (writeAt arr 0 ⟨i, 1, 0⟩).bind fun arr' => .ok (arr', 1)
    else nearLoop s dm ls (i + 1) arr

/-- `riplFixTransition` (390-440); `lev` is the array of the nucleus, level `k` already stored. -/
def fixTransition (mb : Nat) (arr : List (Gam K)) (k : Nat) (lev : List (Level K)) :
    Res (List (Gam K) × Nat) :=
  if k = 1 then (writeAt arr 0 ⟨0, 1, 0⟩).bind fun arr' => .ok (arr', 1)
  else (readAt lev k).bind fun lk =>
    (e1Loop mb lk.spin2 lk.parity (lev.take k) 0 arr 0 100).bind fun r =>
      if r.2.1 = 0 then nearLoop lk.spin2 r.2.2 (lev.take k) 0 r.1 else .ok (r.1, r.2.1)

/-- `riplNormalizeBranch` (445-471). -/
def normalise (ng : Nat) (arr : List (Gam K)) : Res (List (Gam K) × Nat) :=
  if arr.length < ng then .ub
  else if ((arr.take ng).map Gam.pe).sum = 0 then
    if 1 < ng then .ok ((arr.take ng).map (fun g => ⟨g.nf, 1 / (ng : K), 0⟩) ++ arr.drop ng, ng)
    else (readAt arr 0).bind fun g => (writeAt arr 0 ⟨g.nf, 1, 0⟩).bind fun arr' => .ok (arr', 1)
  else .ok ((arr.take ng).map
    (fun g => ⟨g.nf, g.pe * (1 / ((arr.take ng).map Gam.pe).sum), g.ic⟩) ++ arr.drop ng, ng)

/-- A level as stored before its branches are set (160-163); `ngamma` is still 0. -/
def bare (r : Raw K) : Level K := ⟨r.energy, r.spin2, r.parity, r.halflife, []⟩

/-- Branches stored in the level (175-186). -/
def stored (arr : List (Gam K)) (ng : Nat) : List (Branch K) :=
  (arr.take ng).map fun g => ⟨g.nf, g.pe, 1 / (1 + g.ic)⟩

/-- The transitions of level `i` before normalisation (165-170). -/
def transitions (mb i : Nat) (r : Raw K) (lev : List (Level K)) : Res (List (Gam K) × Nat) :=
  if r.gammas.length = 0 then fixTransition mb (arrays mb r.gammas) i lev
  else .ok (arrays mb r.gammas, r.gammas.length)

/-- One level of the file (131-190). -/
def readLevel (mb i : Nat) (r : Raw K) (lev : List (Level K)) : Res (List (Level K)) :=
  (writeAt lev i (bare r)).bind fun lev1 =>
    (transitions mb i r lev1).bind fun t =>
      (normalise t.2 t.1).bind fun u =>
        writeAt lev1 i ⟨r.energy, r.spin2, r.parity, r.halflife, stored u.1 u.2⟩

/-- Levels `i, i+1, ...` of one nucleus. -/
def readLevels (mb : Nat) : List (Raw K) → Nat → List (Level K) → Res (List (Level K))
  | [], _, lev => .ok lev
  | r :: rs, i, lev => (readLevel mb i r lev).bind fun lev' => readLevels mb rs (i + 1) lev'

/-- Default constructed level (structur.h:132-141); only the first `ngamma` (here 0) entries of its
vectors count. -/
def fresh : Level K := ⟨0, 0, 0, 0, []⟩

/-- One nucleus: `new Level[nol]`, then its levels (124-192). -/
def readNucleus (mb : Nat) (rs : List (Raw K)) : Res (List (Level K)) :=
  readLevels mb rs 0 (List.replicate rs.length fresh)

/-- The tables `zaidIndex`, `numberLevels`, `allLevels` (78-85). -/
structure DB (K : Type) where
  zaid : List Int
  levels : List (List (Level K))

/-- Loop over the nuclei of the file (107-197), `c` the running index.  `numberLevels[c]` is the length
of `levels[c]`. -/
def readFile (mb ml : Nat) : List (Int × List (Raw K)) → Nat → DB K → Res (DB K)
  | [], _, db => .ok db
  | (z, rs) :: file, c, db =>
    if ml ≤ rs.length then .exit
    else
      (writeAt db.zaid c z).bind fun zs =>
        (readNucleus mb rs).bind fun ls =>
          (writeAt db.levels c ls).bind fun lv => readFile mb ml file (c + 1) ⟨zs, lv⟩

/-- `readDiscreteLevelData` (60-204) on an existing file. -/
def readData (mb ml mn : Nat) (file : List (Int × List (Raw K))) : Res (DB K) :=
  readFile mb ml file 0 ⟨List.replicate mn 0, List.replicate mn []⟩

/-- The search loop of `getDiscreteLevels` (226-229) with array size `mn`: `id` runs from 0; when `id`
reaches `mn` the comparison `zaidIndex[mn]` reads past the end. -/
def search (zs : List Int) (z : Int) : Res Nat :=
  match zs with
  | [] => .ub
  | a :: zs => if a = z then .ok 0 else (search zs z).bind fun i => .ok (i + 1)

/-- `getDiscreteLevels` for one nucleus (223-240).  The branch `!found` (ground state only) is reached
in the code only after the undefined read. -/
def lookup (db : DB K) (z : Int) : Res (List (Level K)) :=
  (search db.zaid z).bind fun id => readAt db.levels id

/-- `halfint` (cgm.h:27) on doubled spins: 1 when the spin is a positive half-integer. -/
def half (s2 : Int) : Int := if 0 ≤ s2 ∧ s2 % 2 = 1 then 1 else 0

/-- Spin search of `statFixDiscreteLevels` (340-347): first `j` whose running sum exceeds `r`.
`w j` is the increment of the sum (its formula with `exp` is a parameter). -/
def spinScan (w : Nat → K) (r : K) : Nat → Nat → K → Option Nat
  | 0, _, _ => none
  | f + 1, j, s => if r < s + w j then some j else spinScan w r f (j + 1) (s + w j)

/-- Spin of one level (335-348); `g` is the current doubled spin of level 0, `w h` the increments for
half-integer offset `h`. The spin is unchanged when no `j < maxJ` is accepted. -/
def fixSpin (maxJ : Nat) (w : Int → Nat → K) (g s2 : Int) : Rnd K Int :=
  if s2 < 0 then do
    let r ← Rnd.draw
    pure (match spinScan (w (half g)) r maxJ 0 0 with
      | some j => 2 * (j : Int) + half g
      | none => s2)
  else pure s2

/-- Parity of one level (351-354). -/
def fixParity (p : Int) : Rnd K Int :=
  if p = 0 then do
    let r ← Rnd.draw
    pure (if 1 / 2 < r then 1 else -1)
  else pure p

/-- One level (333-355). -/
def fixLevel (maxJ : Nat) (w : Int → Nat → K) (g : Int) (l : Level K) : Rnd K (Level K) := do
  let s ← fixSpin maxJ w g l.spin2
  let p ← fixParity l.parity
  pure { l with spin2 := s, parity := p }

/-- Levels after the first; `g` is the spin of the repaired level 0. -/
def fixRest (maxJ : Nat) (w : Int → Nat → K) (g : Int) : List (Level K) → Rnd K (List (Level K))
  | [] => pure []
  | l :: ls => do
    let l' ← fixLevel maxJ w g l
    let ls' ← fixRest maxJ w g ls
    pure (l' :: ls')

/-- The repair loop (331-356). -/
def fixAll (maxJ : Nat) (w : Int → Nat → K) : List (Level K) → Rnd K (List (Level K))
  | [] => pure []
  | l :: ls => do
    let l' ← fixLevel maxJ w l.spin2 l
    let ls' ← fixRest maxJ w l'.spin2 ls
    pure (l' :: ls')

/-- `statFixDiscreteLevels` (323-358): quick scan, then the repair loop. -/
def fixLevels (maxJ : Nat) (w : Int → Nat → K) (ls : List (Level K)) : Rnd K (List (Level K)) :=
  if ∃ l ∈ ls, l.spin2 < 0 ∨ l.parity = 0 then fixAll maxJ w ls else pure ls

end CGMF.Ripl

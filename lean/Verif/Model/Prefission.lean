import Verif.Model.Rnd
import Mathlib.Algebra.Order.Floor.Ring

/-!
# Multi-chance fission and pre-fission neutrons

libcgmf/src/FissionFragments.cpp: `readMultichanceFissionData` (5197-5320), `getNumberPrefissionNeutrons`
(5327-5337), `getPrefissionNeutronEnergy` (5347-5469), the first part of `constructYields` (5081-5098);
libcgmf/src/stattrans.cpp 37-44 (channel energies).  `Chance` is the block of the nucleus that
was found (the text of multichancefission.dat is in Model/ChanceText).  The spectra (`sp1`, `sp`) are parameters,
and the angular table `Ppreeq` of a pre-equilibrium neutron is in Model/PreeqAngle.
-/

namespace CGMF.Pre

variable {K : Type} [Field K] [LinearOrder K] [FloorRing K]

/-- Read of a two-dimensional array. -/
def readAt2 {α : Type} (t : List (List α)) (i j : Int) : Res α := (readAt t i).bind fun r => readAt r j

/-- The block of one nucleus (5230-5250): largest number of neutrons, barriers (`nn+1`), energies and
probabilities (`nn+1` per energy). -/
structure Chance (K : Type) where
  nn : Nat
  barrier : List K
  energies : List K
  pf : List (List K)

/-- Line 5259: index of the first energy that is at least `e`; `none` leaves `emissprob` unset. -/
def firstAtLeast (e : K) (es : List K) : Option Nat := es.findIdx? (fun x => decide (e ≤ x))

/-- Lines 5262-5267: the probability of `j` neutrons. For `i = 0` the code reads `energies[-1]` and
`Pf[-1]`. -/
def interpOne (c : Chance K) (e : K) (i j : Int) : Res K :=
  (readAt2 c.pf i j).bind fun p1 => (readAt2 c.pf (i - 1) j).bind fun p0 =>
    (readAt c.energies i).bind fun e1 => (readAt c.energies (i - 1)).bind fun e0 =>
      .ok (if (p1 - p0) / (e1 - e0) ≠ 0 then (e - e0) * ((p1 - p0) / (e1 - e0)) + p0 else p1)

/-- The loop over `j` (5261), from `j` on, `m` entries. -/
def interpFrom (c : Chance K) (e : K) (i : Int) : Nat → Nat → Res (List K)
  | _, 0 => .ok []
  | j, m + 1 => (interpOne c e i j).bind fun p => (interpFrom c e i (j + 1) m).bind fun ps => .ok (p :: ps)

/-- Lines 5252-5272. -/
def interp (c : Chance K) (e : K) : Res (List K) :=
  (readAt c.energies 0).bind fun e0 => (readAt c.energies ((c.energies.length : Int) - 1)).bind fun e1 =>
    if e < e0 ∨ e1 < e then .exit
    else match firstAtLeast e c.energies with
      | some i => interpFrom c e i 0 (c.nn + 1)
      | none => .ub

/-- Lines 5283-5291: the new `nemit`. -/
def limit (ps : List K) (nn : Nat) (nemit : Int) : Int :=
  match (List.range (min nemit (nn : Int) + 1).toNat).find? (fun j : Nat => decide (ps.getD j 0 ≤ 0)) with
  | some j => (j : Int) - 1
  | none => nn

/-- Lines 5295-5302: normalisation of the entries `0..m-1` where `m = nemit+1`. -/
def normTo (m : Nat) (ps : List K) : List K :=
  (ps.take m).map (· / (ps.take m).sum) ++ ps.drop m

/-- Lines 5294, 5301: the largest of the normalised entries, at least zero. -/
def maxOf (ps : List K) : K := ps.foldl (fun m p => if m < p then p else m) 0

/-- What the function leaves behind. -/
structure Multi (K : Type) where
  nemit : Int
  prob : List K
  pmax : K
  deriving DecidableEq, Repr

/-- `readMultichanceFissionData` for a nucleus that is listed (5232-5304). -/
def multi (c : Chance K) (e : K) (nemit : Int) : Res (Multi K) :=
  (interp c e).bind fun ps =>
    .ok ⟨limit ps c.nn nemit, normTo (limit ps c.nn nemit + 1).toNat ps,
      maxOf ((normTo (limit ps c.nn nemit + 1).toNat ps).take (limit ps c.nn nemit + 1).toNat)⟩

/-- `buildYields` 2206-2212: spontaneous fission has a single entry. -/
def spontaneous (nemit : Int) : Multi K := ⟨nemit, [1], 0⟩

/-- `getNumberPrefissionNeutrons` (5327-5337). -/
def number (m : Multi K) : Rnd K Int
  | r1 :: r2 :: s =>
    match readAt m.prob ⌊r1 * (m.nemit + 1 : Int)⌋ with
    | .ok p => if p < m.pmax * r2 then number m s else .ok (⌊r1 * (m.nemit + 1 : Int)⌋, s)
    | .exit => .exit
    | .ub => .ub
  | _ => .more

/-- Lines 5373-5376 and 5451-5454: largest value of a spectrum over `m` bins from `lo`, at least zero. -/
def maxSpec (sp : List K) : Int → Nat → K → Res K
  | _, 0, mx => .ok mx
  | lo, m + 1, mx => (readAt sp lo).bind fun x => maxSpec sp (lo + 1) m (if mx < x then x else mx)

/-- Lines 5380-5382 and 5456-5458: `kf = (int)(lo + n*rng)`, repeated while `sp[kf] < max*rng`. -/
def pickBin (sp : List K) (lo n : Int) (mx : K) : Rnd K Int
  | r1 :: r2 :: s =>
    match readAt sp ⌊(lo : K) + n * r1⌋ with
    | .ok p => if p < mx * r2 then pickBin sp lo n mx s else .ok (⌊(lo : K) + n * r1⌋, s)
    | .exit => .exit
    | .ub => .ub
  | _ => .more

/-- The nuclei `ncl[0..]`: excitation energies of the bins (`MAX_ENERGY_BIN` entries each) and neutron
separation energies; the barriers; `w` is `ENERGY_BIN`, `tiny` the constant 1e-10, `sp1` the first
spectrum, `sp i k0` the evaporation spectrum computed for neutron `i` starting from bin `k0`. -/
structure Sys (K : Type) where
  exc : List (List K)
  sep : List K
  barrier : List K
  w : K
  tiny : K
  sp1 : List K
  sp : Nat → Int → List K

/-- stattrans.cpp:44: channel energy from bin `k0` of nucleus `i` to bin `k` of the next nucleus. -/
def ecms (y : Sys K) (i : Nat) (k0 k : Int) : Res K :=
  (readAt2 y.exc i k0).bind fun a => (readAt2 y.exc (i + 1) k).bind fun b =>
    (readAt y.sep i).bind fun q => .ok (a - b - q)

/-- Lines 5384 and 5462: the energy of the bin plus `0.5*ENERGY_BIN*(1-2*rng)`. -/
def smear (y : Sys K) (e r : K) : K := e + 1 / 2 * y.w * (1 - 2 * r)

/-- One neutron of the loop over `i = 2..n` (5436-5465): returns its energy and the new `kf`. -/
def later (y : Sys K) (n i : Nat) (kstart : Int) : Rnd K (K × Int) := do
  let x ← Rnd.lift (readAt2 y.exc n kstart)
  let b ← Rnd.lift (readAt y.barrier n)
  if x - b < y.w then pure (y.tiny, kstart)
  else do
    let m := ⌊(x - b) / y.w⌋ + 1
    let mx ← Rnd.lift (maxSpec (y.sp i kstart) kstart m.toNat 0)
    let kf ← pickBin (y.sp i kstart) kstart m mx
    let e ← Rnd.lift (ecms y (i - 1) kstart kf)
    let r ← Rnd.draw
    pure (smear y e r, kf)

/-- The loop (5436-5465): `m` more neutrons, the next one being number `i`. -/
def laterAll (y : Sys K) (n : Nat) : Nat → Nat → Int → Rnd K (List K × Int)
  | _, 0, k => pure ([], k)
  | i, m + 1, k => do
    let p ← later y n i k
    let q ← laterAll y n (i + 1) m p.2
    pure (p.1 :: q.1, q.2)

/-- The first neutron (5370-5384). -/
def first (y : Sys K) (eps : K) : Rnd K (K × Int) := do
  let mx ← Rnd.lift (maxSpec y.sp1 0 ⌈eps / y.w⌉.toNat 0)
  let kf ← pickBin y.sp1 0 ⌈eps / y.w⌉ mx
  let e ← Rnd.lift (ecms y 0 0 kf)
  let r ← Rnd.draw
  pure (smear y e r, kf)

/-- `getPrefissionNeutronEnergy` (5347-5469): energies of the neutrons (`none` when the function returns
early, leaving `cmEnergy_pfn` as it was) and the excitation energy afterwards. `E0` is the value of
`*excitEnergy` on entry, `nemit` the limit, `n` is `n_pfn`. -/
def energies (y : Sys K) (nemit : Int) (n : Nat) (E0 : K) : Rnd K (Option (List K) × K) :=
  if nemit = 0 ∨ n = 0 then pure (none, E0)
  else do
    let x ← Rnd.lift (readAt2 y.exc n 0)
    let b ← Rnd.lift (readAt y.barrier n)
    if x - b < 0 then pure (none, E0)
    else do
      let p ← first y (x - b)
      let q ← laterAll y n 2 (n - 1) p.2
      let ex ← Rnd.lift (readAt2 y.exc n q.2)
      pure (some (p.1 :: q.1), ex)

/-- The random numbers behind the pre-fission neutrons of one event, in the order of the code: their number
(2240-2244), then, when there are any, whether the first one is a pre-equilibrium neutron (2254-2269, a negative
fraction counting as zero), then the energies (5081).  `y true` holds the pre-equilibrium spectrum as `sp1` and
`y false` the evaporation spectrum (2271-2289). -/
def prefission (m : Multi K) (f : K) (y : Bool → Sys K) (E0 : K) : Rnd K (Int × Option (List K) × K) := do
  let n ← number m
  if n = 0 then pure (0, none, E0)
  else do
    let r ← Rnd.draw
    let q ← energies (y (decide (r ≤ if f < 0 then 0 else f))) m.nemit n.toNat E0
    pure (n, q)

/-- The compound nucleus at fission. -/
structure Comp (K : Type) where
  zc : Int
  ac : Int
  mx : K
  sn : K
  einc : K
  deriving DecidableEq, Repr

/-- `constructYields` 5084-5098: mass number, mass excess, separation energy and equivalent incident
energy of the fissioning nucleus. `c0` holds the original values, `mass` the mass table, `en` the mass
excess of the neutron, `excit` the excitation energy left by `getPrefissionNeutronEnergy`. -/
def shift (mass : Int → Int → Res K) (en : K) (sf : Bool) (c0 : Comp K) (n : Int) (excit : K) : Res (Comp K) :=
  if sf then .ok c0
  else
    (mass c0.zc (c0.ac - n)).bind fun m => (mass c0.zc (c0.ac - n - 1)).bind fun m1 =>
      .ok ⟨c0.zc, c0.ac - n, m, -m + m1 + en, excit - (-m + m1 + en)⟩

end CGMF.Pre

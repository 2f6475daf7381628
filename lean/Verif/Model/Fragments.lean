import Verif.Model.Yields

/-!
# Sampling of the primary fission fragments

libcgmf/src/FissionFragments.cpp: `generateInitialFissionFragmentHistories` (1059-1082),
`sampleFissionFragments` (1319-1435), `computeFragmentInitialConditions` (1444-1495),
`computeFragmentExcitationEnergy` (1552-1735), `getInitialSpin` (2020-2047), `getTemperature` (4483-4500),
`getLDP` (4582-4601), `findEnergyIndex` (5062-5073), `computeFragmentAngularDistribution` (4781-4822).

Loops that read random numbers directly recurse over the random numbers; the other unbounded loops take
a number of passes `fuel` and answer `more` when it is used up, so that a loop that does not end is `more`
for every `fuel`.
-/

namespace CGMF.Frag

open CGMF.Pre CGMF.Yld

variable {K : Type} [Field K] [LinearOrder K] [FloorRing K]

/-! ## Mass and charge -/

/-- The tables used by the rejection samplers: `ya` is `YA`, `yza` is `YZA[.][.]` (first index the charge
index), `mz` is `maxYieldZ`, `z0` is `Z0`. -/
structure Tab (K : Type) where
  amin : Int
  amax : Int
  maxA : K
  dZ : Int
  ya : List K
  yza : List (List K)
  mz : List K
  z0 : List K

/-- Mass drawn from the first random number (1349). -/
def massOf (t : Tab K) (r : K) : Int := ⌊r * (t.amax - t.amin + 1 : Int) + t.amin⌋

/-- Charge offset drawn from a random number (1362), `iZmax = dZ`, `iZmin = -dZ`. -/
def chargeOf (t : Tab K) (r : K) : Int := ⌊r * (t.dZ - (-t.dZ) + 1 : Int) + (-t.dZ : Int)⌋

/-- The loop over charges (1357-1367). -/
def pickZ (t : Tab K) (iA : Int) (mz : K) : Rnd K Int
  | r1 :: r2 :: s =>
    match readAt2 t.yza (chargeOf t r1 + t.dZ) iA with
    | .ok v => if v < r2 * mz then pickZ t iA mz s else .ok (chargeOf t r1, s)
    | .exit => .exit
    | .ub => .ub
  | _ => .more

/-- After a mass has been accepted (1355-1368). -/
def withZ (t : Tab K) (iA : Int) : Rnd K (Int × Int) := do
  let mz ← Rnd.lift (readAt t.mz iA)
  let iZ ← pickZ t iA mz
  pure (iA, iZ)

/-- The loop over masses (1345-1372). -/
def pickAZ (t : Tab K) : Rnd K (Int × Int)
  | r1 :: r2 :: s =>
    match readAt t.ya (massOf t r1) with
    | .ok v => if r2 * t.maxA ≤ v then withZ t (massOf t r1) s else pickAZ t s
    | .exit => .exit
    | .ub => .ub
  | _ => .more

/-- A pair of fragments. -/
structure Pair where
  al : Int
  zl : Int
  ah : Int
  zh : Int
  deriving DecidableEq, Repr

/-- Assignment of the light and the heavy fragment (1377-1385); `zp` is `floor(Z0[iA]+0.5)`. -/
def assign (ac zc iA iZ zp : Int) : Pair :=
  if iA ≤ ac / 2 then ⟨iA, iZ + zp, ac - iA, zc - (iZ + zp)⟩
  else ⟨ac - iA, zc - iZ - zp, ac - (ac - iA), zc - (zc - iZ - zp)⟩

/-- Lines 1345-1385. -/
def pair (t : Tab K) (ac zc : Int) : Rnd K Pair := do
  let p ← pickAZ t
  let z ← Rnd.lift (readAt t.z0 p.1)
  pure (assign ac zc p.1 p.2 ⌊z + 1 / 2⌋)

/-! ## Tables of temperatures and level density parameters -/

/-- `findEnergyIndex` (5062-5073): -1 when no entry from the second on exceeds `x0`. -/
def findEnergyIndex (x0 : K) (xs : List K) : Int :=
  match xs.tail.findIdx? (fun x => decide (x0 < x)) with
  | some k => k
  | none => -1

/-- The interpolation of `getTemperature` (4491-4499) and `getLDP` (4590-4600) on one row of the table. -/
def interpRow (grid row : List K) (e : K) : Res K :=
  (readAt grid (findEnergyIndex e grid)).bind fun e1 =>
    (readAt grid (findEnergyIndex e grid + 1)).bind fun e2 =>
      (readAt row (findEnergyIndex e grid)).bind fun t1 =>
        (readAt row (findEnergyIndex e grid + 1)).bind fun t2 =>
          .ok ((t2 - t1) / (e2 - e1) * (e - e1) + t1)

/-- Lines 4485-4489 and 4584-4588: a row whose first entry is zero is replaced by the default `5.0`. -/
def rowOf (dflt : K) (row : List K) : List K :=
  if row.head? = some 0 then List.replicate row.length dflt else row

/-- `getTemperature(zaid, energy)` and `getLDP(zaid, energy)`: `tab` has `MAX_ZAID` rows. -/
def lookup (dflt : K) (grid : List K) (tab : List (List K)) (zaid : Int) (e : K) : Res K :=
  (readAt tab zaid).bind fun row => interpRow grid (rowOf dflt row) e

/-! ## Sharing of the excitation energy -/

/-- The iteration (1715-1732): `al`, `ah` are the current `alf`, `ahf`; `tol` is 0.01; `ldpl`, `ldph` are
`getLDP` of the two fragments. The counter only triggers a message and two assignments that lines 1734-1735
overwrite, so it has no effect on the result. A zero denominator is kept apart. -/
def shareLoop (ldpl ldph : K → Res K) (rt txe tol : K) : Nat → K → K → Out (K × K)
  | 0, _, _ => .more
  | fuel + 1, al, ah =>
    if al * rt * rt + ah = 0 then .ub
    else
      let eh := ah / (al * rt * rt + ah) * txe
      let el := txe - eh
      match ldpl el, ldph eh with
      | .ok al', .ok ah' => if tol < |al' - al| then shareLoop ldpl ldph rt txe tol fuel al' ah' else .ok (el, eh)
      | .exit, _ => .exit
      | .ub, _ => .ub
      | .ok _, .exit => .exit
      | .ok _, .ub => .ub

/-- The temperature-ratio options `fixedRT`, `Pfactors`, `RTA` (1676-1735). -/
def shareRT (ldpl ldph : K → Res K) (rt txe tol : K) (fuel : Nat) : Out (K × K) :=
  match ldpl (txe / 2), ldph (txe / 2) with
  | .ok al, .ok ah => shareLoop ldpl ldph rt txe tol fuel al ah
  | .exit, _ => .exit
  | .ub, _ => .ub
  | .ok _, .exit => .exit
  | .ok _, .ub => .ub

/-- The `maxEntropy` option (1562-1674): `grid` are the energies `ldEnergyGrid[1..]`, `wgt el eh` the product
of the two level densities, `ucoll` the collective energy of the pair. -/
def shareEnt (grid : List K) (wgt : K → K → K) (ucoll txe : K) : K × K :=
  let uint := txe - ucoll
  let es := grid.takeWhile (fun e => decide (e ≤ uint))
  let num := (es.map fun e => e * wgt e (uint - e)).sum
  let den := (es.map fun e => wgt e (uint - e)).sum
  if den = 0 then (0, 0) else (num / den, uint - num / den)

/-- `energySortingOption`. -/
inductive Sharing (K : Type) where
  | rt (ratio : Pair → K)
  | entropy (grid : List K) (wgt : Pair → K → K → K) (ucoll : Pair → K → K)
  | other

/-- `computeFragmentExcitationEnergy`: the default branch calls `exit(0)` (1738). -/
def share (ldp : Int → K → Res K) (tol : K) (o : Sharing K) (fuel : Nat) (p : Pair) (txe : K) : Out (K × K) :=
  match o with
  | .rt ratio => shareRT (ldp (1000 * p.zl + p.al)) (ldp (1000 * p.zh + p.ah)) (ratio p) txe tol fuel
  | .entropy grid wgt ucoll => .ok (shareEnt grid (wgt p) (ucoll p txe) txe)
  | .other => .exit

/-! ## Spin and parity -/

/-- Spin of index `j` (2031, 2045): `j`, plus one half for odd mass number. -/
def spinOf (A : Int) (j : Nat) : K := if A % 2 = 0 then (j : K) else (j : K) + 1 / 2

/-- Normalised spin distribution (2029-2039); `exp` is the exponential, `nj` is 50. -/
def spinProb (exp : K → K) (nj : Nat) (A : Int) (B2 : K) : List K :=
  let raw := (List.range nj).map fun j : Nat =>
    (2 * spinOf A j + 1) * exp (-(spinOf A j * (spinOf A j + 1)) / (2 * B2))
  raw.map (· / raw.sum)

/-- The loop 2041-2043: `j = int(rng*50)` until `rng <= P(j)`. -/
def pickSpin (nj : Nat) (ps : List K) : Rnd K Nat
  | r1 :: r2 :: s =>
    match readAt ps ⌊r1 * (nj : K)⌋ with
    | .ok p => if p < r2 then pickSpin nj ps s else .ok (⌊r1 * (nj : K)⌋.toNat, s)
    | .exit => .exit
    | .ub => .ub
  | _ => .more

/-- `getInitialSpin` (2020-2047): a vanishing spin parameter or sum gives NaN probabilities, kept apart as
undefined. -/
def spin (exp : K → K) (nj : Nat) (A : Int) (B2 : K) : Rnd K K :=
  if B2 = 0 then Rnd.undef
  else do
    let j ← pickSpin nj (spinProb exp nj A B2)
    pure (spinOf A j)

/-- Line 1470: `1`, and `-1` if the random number is below one half. -/
def parity : Rnd K Int := do
  let r ← Rnd.draw
  pure (if r < 1 / 2 then -1 else 1)

/-! ## Initial conditions of one pair -/

/-- What the sampling of a pair needs besides the tables: mass excesses (`mass` is `getMassExcess`, which
stops the process when missing; `mtab` is `mass_excess` of masstable.cpp, another table), level density parameters, sharing option, spin parameter, total kinetic energy of
a heavy mass, and the momentum routine `boost_pfn`. -/
structure Env (K M : Type) where
  mass : Int → Res K
  mtab : Int → Int → Res K
  ldp : Int → K → Res K
  tol : K
  opt : Sharing K
  exp : K → K
  nj : Nat
  b2 : Int → Int → K → Res K
  tke : Int → Rnd K K
  boost : K → Pair → Int → Rnd K M

/-- Excitation energies, spins and parities. -/
structure Exc (K : Type) where
  ul : K
  uh : K
  spins : Option (K × K × Int × Int)
  q : K
  deriving DecidableEq, Repr

/-- `Out` without random numbers, inside `Rnd`. -/
def liftOut {α : Type} (x : Out α) : Rnd K α := fun s =>
  match x with
  | .ok a => .ok (a, s)
  | .exit => .exit
  | .ub => .ub
  | .more => .more

/-- Lines 1459-1474: sharing, spins and parities of a pair with total excitation energy `txe`. -/
def excite {M : Type} (v : Env K M) (fuel : Nat) (p : Pair) (txe q : K) : Rnd K (Exc K) :=
  if txe < 0 then pure ⟨0, 0, none, q⟩
  else do
    let u ← liftOut (share v.ldp v.tol v.opt fuel p txe)
    let bl ← Rnd.lift (v.b2 p.zl p.al u.1)
    let jl ← spin v.exp v.nj p.al bl
    let bh ← Rnd.lift (v.b2 p.zh p.ah u.2)
    let jh ← spin v.exp v.nj p.ah bh
    let pl ← parity
    let ph ← parity
    pure ⟨u.1, u.2, some (jl, jh, pl, ph), q⟩

/-- `computeFragmentInitialConditions` (1444-1495); `a0` is `Ac0`, the mass of the initial compound. -/
def initial {M : Type} (v : Env K M) (fuel : Nat) (a0 : Int) (c : Comp K) (p : Pair) (tke : K) :
    Rnd K (Exc K × M) := do
  let ml ← Rnd.lift (v.mass (1000 * p.zl + p.al))
  let mh ← Rnd.lift (v.mass (1000 * p.zh + p.ah))
  let x ← excite v fuel p (c.mx - ml - mh + (c.einc + c.sn) - tke) (c.mx - ml - mh)
  let m ← v.boost tke p (a0 - c.ac)
  pure (x, m)

/-- The loop over total kinetic energies (1391-1395). -/
def tkeLoop {M : Type} (v : Env K M) (fuel : Nat) (a0 : Int) (c : Comp K) (p : Pair) :
    Nat → Rnd K (K × Exc K × M)
  | 0 => fun _ => .more
  | n + 1 => do
    let t ← v.tke p.ah
    let x ← initial v fuel a0 c p t
    if x.1.ul = 0 ∧ x.1.uh = 0 then tkeLoop v fuel a0 c p n else pure (t, x.1, x.2)

/-- The record of a pair (1400-1430). -/
structure Frags (K M : Type) where
  p : Pair
  x : Exc K
  tke : K
  kel : K
  keh : K
  mom : M

/-- Kinetic energies (1408-1410): `Ml`, `Mh` are `A*amuMeV + mass_excess`. -/
def kinetic (amu tke : K) (p : Pair) (ml mh : K) : K × K :=
  (tke * (p.ah * amu + mh) / ((p.al * amu + ml) + (p.ah * amu + mh)),
   tke * (p.al * amu + ml) / ((p.al * amu + ml) + (p.ah * amu + mh)))

/-- `sampleFissionFragments` with `Yields` (1319-1435). -/
def sample {M : Type} (v : Env K M) (amu : K) (t : Tab K) (fuel : Nat) (a0 : Int) (c : Comp K) :
    Rnd K (Frags K M) := do
  let p ← pair t c.ac c.zc
  let r ← tkeLoop v fuel a0 c p fuel
  let ml ← Rnd.lift (v.mtab p.zl p.al)
  let mh ← Rnd.lift (v.mtab p.zh p.ah)
  pure ⟨p, r.2.1, r.1, (kinetic amu r.1 p ml mh).1, (kinetic amu r.1 p ml mh).2, r.2.2⟩

/-- One event with the yields built for it: `construct` is `constructYields`, giving the compound nucleus,
the tables and the rest. An event is kept when both excitation energies differ from zero (1072). -/
def event {M : Type} (amu : K) (construct : Rnd K (Comp K × Tab K × Env K M)) (fuel : Nat) (a0 : Int) :
    Nat → Rnd K (Comp K × Frags K M)
  | 0 => fun _ => .more
  | n + 1 => do
    let y ← construct
    let f ← sample y.2.2 amu y.2.1 fuel a0 y.1
    if f.x.ul ≠ 0 ∧ f.x.uh ≠ 0 then pure (y.1, f) else event amu construct fuel a0 n

/-- `generateInitialFissionFragmentHistories` (1059-1082), option "Systematics". -/
def generate {M : Type} (amu : K) (construct : Rnd K (Comp K × Tab K × Env K M)) (fuel : Nat) (a0 : Int) :
    Nat → Rnd K (List (Comp K × Frags K M))
  | 0 => pure []
  | n + 1 => do
    let e ← event amu construct fuel a0 fuel
    let es ← generate amu construct fuel a0 n
    pure (e :: es)

/-- `constructYields` (5081-5110) as far as an event depends on it: `n` is `n_pfn`, `left` gives the excitation
energy left by `getPrefissionNeutronEnergy`, `shift` the fissioning nucleus, and `build` the yield tables and
the rest for that nucleus. -/
def construct {M : Type} (mass : Int → Int → Res K) (en : K) (sf : Bool) (c0 : Comp K) (n : Int) (left : Rnd K K)
    (build : Comp K → Rnd K (Tab K × Env K M)) : Rnd K (Comp K × Tab K × Env K M) := do
  let ex ← left
  let c ← Rnd.lift (shift mass en sf c0 n ex)
  let b ← build c
  pure (c, b.1, b.2)

/-- One `FissionFragments` object with option "Systematics": the number of pre-fission neutrons is drawn once
while the object is built (`buildYields`, 2241-2243, `num` is the loop there) and used for all its events. -/
def run {M : Type} (amu : K) (mass : Int → Int → Res K) (en : K) (sf : Bool) (c0 : Comp K) (num : Rnd K Int)
    (left : Int → Rnd K K) (build : Int → Comp K → Rnd K (Tab K × Env K M)) (fuel N : Nat) :
    Rnd K (Int × List (Comp K × Frags K M)) := do
  let n ← num
  let es ← generate amu (construct mass en sf c0 n (left n) (build n)) fuel c0.ac N
  pure (n, es)

/-! ## Angular distribution -/

/-- `cosTheta` of index `i` (4808): `THETA_STEPS` is `n`. -/
def cosAt (n i : Nat) : K := 2 * i / ((n : K) - 1) - 1

/-- Cumulative sums (4803-4812): entry `i` adds `1+(c-1)*cos^2`, entry 0 is 0. -/
def cumul (c : K) (n : Nat) : Nat → K
  | 0 => 0
  | i + 1 => cumul c n i + (1 + (c - 1) * cosAt n (i + 1) * cosAt n (i + 1))

/-- `Pcostheta` (4803-4817); `none` when the coefficient is one and the table is not used. The last entry
zero would give NaN. -/
def angular (c : K) (n : Nat) : Option (List (K × K)) :=
  if c = 1 then none
  else some ((List.range n).map fun i : Nat =>
    (if i = 0 then -1 else cosAt n i, cumul c n i / cumul c n (n - 1)))

end CGMF.Frag

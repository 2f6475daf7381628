import Verif.Model.Rnd
import Verif.Model.Prefission
import Mathlib.Algebra.Order.Floor.Ring

/-!
# Mass yields, charge distribution, average total kinetic energy

libcgmf/src/Yields.cpp: `LoadYAParams` (74-115), `setFissioningSystem` (362-487), `setRescaleTKE` (494-505), `yieldA` (512-530),
`gaussian` (575-580), `setParametersAverageTKE` (589-617), `averageTKE` (637-647), `sampleTKE` (655-664), `get_avTKE` (671-680);
libcgmf/src/FissionFragments.cpp: `buildYZA` (2420-2490), `buildYZ` (2500-2532), `constructYields`
(5109-5147).  `exp`, `erf` and `sqrt` are parameters.
-/

namespace CGMF.Yld

open CGMF.Pre

variable {K : Type} [Field K] [LinearOrder K] [FloorRing K]

/-- One of the modes of the mass distribution: weight, mean, width. -/
structure Mode (K : Type) where
  w : K
  mu : K
  sig : K
  deriving DecidableEq, Repr

/-- `gaussian` (575-580): `exp` is the exponential, `c` is `sqrt(PI2)`. -/
def gaussian (exp : K → K) (c : K) (x : K) (m : Mode K) : K :=
  m.w / (c * m.sig) * exp (-(1 / 2) * (x - m.mu) * (x - m.mu) / m.sig / m.sig)

/-- The sum of the gaussians at mass `a` (520-524): the symmetric mode once, each other mode also at the
complementary mean. -/
def modeSum (exp : K → K) (c : K) (acn : Int) (m0 : Mode K) (ms : List (Mode K)) (a : K) : K :=
  gaussian exp c a m0 + (ms.map fun m => gaussian exp c a m + gaussian exp c a { m with mu := acn - m.mu }).sum

/-- `yieldA` (512-530): `cut` is 1e-5. Integer division `a_cn/2` of a positive number. -/
def yieldA (exp : K → K) (c cut : K) (acn : Int) (m0 : Mode K) (ms : List (Mode K)) (A : Int) : K :=
  let a : Int := if acn / 2 ≤ A then A else acn - A
  let s := modeSum exp c acn m0 ms (a : K)
  if cut < s then s else 0

/-- Coefficients of one supported compound nucleus (`w_a[idx][i]`, ...), per mode. -/
structure Coef (K : Type) where
  wa : List K
  wb : List K
  siga : List K
  sigb : List K
  mua : List K
  mub : List K

/-- `LoadYAParams` (82-99): the fourteen numbers of a row in the order of the file.  `w_a`, `w_b`, `mu_a` and `mu_b` of the
symmetric mode are never read; they are 0 here. -/
def coefOf (row : List K) : Coef K :=
  ⟨[0, row.getD 0 0, row.getD 6 0], [0, row.getD 1 0, row.getD 7 0], [row.getD 12 0, row.getD 4 0, row.getD 10 0],
    [row.getD 13 0, row.getD 5 0, row.getD 11 0], [0, row.getD 2 0, row.getD 8 0], [0, row.getD 3 0, row.getD 9 0]⟩

/-- `setFissioningSystem` 452-478 for the three modes, with the coefficients of the chosen row; `shift` is
`a_cn - a0_cn`. -/
def modes (exp : K → K) (t : Coef K) (acn shift : Int) (einc : K) : Res (Mode K × List (Mode K)) :=
  let one : Int → Res (Mode K) := fun i =>
    (readAt t.wa i).bind fun wa => (readAt t.wb i).bind fun wb => (readAt t.siga i).bind fun sa =>
      (readAt t.sigb i).bind fun sb => (readAt t.mua i).bind fun ma => (readAt t.mub i).bind fun mb =>
        .ok ⟨1 / (1 + exp ((einc - wa) / wb)), (shift : K) + ma + mb * einc, sa + sb * einc⟩
  (one 1).bind fun m1 => (one 2).bind fun m2 =>
    (readAt t.siga 0).bind fun sa => (readAt t.sigb 1).bind fun sb =>
      .ok (⟨2 - 2 * m1.w - 2 * m2.w, (acn : K) / 2, sa + sb * einc⟩, [m1, m2])

/-- Selection of the row of mass-yield coefficients (449): row and shift. `supp` is `NFsupp_YA`, `a0` the
mass number of the initial compound nucleus; `n` is `emitted_neutrons`. -/
def rowYA (supp : List Bool) (acn a0 n : Int) : Res (Int × Int) :=
  if 4 < n then .ok (0, acn - a0)
  else (readAt supp n).bind fun b => .ok (if b then (n, 0) else (0, acn - a0))

/-- Lines 5112-5116: the yields of all masses below `NUMA`. -/
def rawYields (numa : Nat) (y : Int → K) : List K := (List.range numa).map fun a : Nat => y a

/-- `Amin` (5110, 5114): the first mass of positive yield, 300 if there is none. -/
def amin (ys : List K) : Int :=
  match ys.findIdx? (fun v => decide (0 < v)) with
  | some i => i
  | none => 300

/-- `Amax` (5110, 5115): the last mass of positive yield, -1 if there is none. -/
def amax (ys : List K) : Int :=
  match (List.range ys.length).reverse.find? (fun i : Nat => decide (0 < ys.getD i 0)) with
  | some i => i
  | none => -1

/-- Is the mass index `i` in `[lo, hi]`? -/
def inRange (lo hi : Int) (i : Nat) : Bool := decide (lo ≤ i ∧ (i : Int) ≤ hi)

/-- Sum of the entries with index in `[lo, hi]` (5119-5122). -/
def sumIn (ys : List K) (lo hi : Int) : K :=
  ((List.range ys.length).map fun i : Nat => if inRange lo hi i then ys.getD i 0 else 0).sum

/-- Lines 5123-5126: division by the sum inside `[Amin, Amax]`. -/
def normYields (ys : List K) : List K :=
  (List.range ys.length).map fun i : Nat =>
    if inRange (amin ys) (amax ys) i then ys.getD i 0 / sumIn ys (amin ys) (amax ys) else ys.getD i 0

/-- Line 5125: `maxYieldA`. -/
def maxYield (ys : List K) (lo hi : Int) : K :=
  maxOf ((List.range ys.length).map fun i : Nat => if inRange lo hi i then ys.getD i 0 else 0)

/-- `pow(x, j)` with the coefficients of a power expansion about `x0` (606-615). -/
def poly (cs : List K) (x : K) : K :=
  ((List.range cs.length).map fun j : Nat => cs.getD j 0 * x ^ j).sum

/-- One of the two loops of `setParametersAverageTKE` (606-615) from mass `a`, `m` masses. -/
def fillSym (acn : Int) (x0 : K) (cs : List K) : Nat → Int → List K → Res (List K)
  | 0, _, t => .ok t
  | m + 1, a, t => (writeAt t a (poly cs ((a : K) - x0))).bind fun t =>
      (writeAt t (acn - a) (poly cs ((a : K) - x0))).bind fun t => fillSym acn x0 cs m (a + 1) t

/-- A table of `setParametersAverageTKE`: default `d` everywhere (300 entries), then the expansion from
`(a_cn+1)/2` up to `amx = (int)param[1]`. -/
def massTable (numa : Nat) (d : K) (acn amx : Int) (x0 : K) (cs : List K) : Res (List K) :=
  fillSym acn x0 cs (amx - (acn + 1) / 2 + 1).toNat ((acn + 1) / 2) (List.replicate numa d)

/-- `averageTKE` (637-647), two coefficients. -/
def averageTKE (p0 p1 e : K) : K := p0 + p1 * e

/-- `setRescaleTKE` (494-505): the sum over `[Amin, Amax]` reads both tables. -/
def tkeSum (av ys : List K) : Nat → Int → K → Res K
  | 0, _, s => .ok s
  | m + 1, a, s => (readAt av a).bind fun t => (readAt ys a).bind fun y => tkeSum av ys m (a + 1) (s + t * y)

/-- `rescaleAverageTKE`. A zero sum divides by zero; the code does not test it. -/
def rescale (av ys : List K) (lo hi : Int) (target : K) : Res K :=
  (tkeSum av ys (hi - lo + 1).toNat lo 0).bind fun s => if s = 0 then .ub else .ok (target / s)

/-- The table index of mass `A` in `sampleTKE` and `get_avTKE` (658-662, 674-678). -/
def heavyIdx (acn A : Int) : Int := if acn / 2 + acn % 2 ≤ A then A else acn - A

/-- `get_avTKE`: average total kinetic energy of mass `A`. -/
def avTKE (av : List K) (acn : Int) (resc : K) (A : Int) : Res K :=
  (readAt av (heavyIdx acn A)).bind fun t => .ok (resc * t)

/-- `sampleTKE` (655-664) with the gaussian deviate `g`. -/
def sampleTKE (av sd : List K) (acn : Int) (resc : K) (A : Int) (g : K) : Res K :=
  (readAt av (heavyIdx acn A)).bind fun t => (readAt sd (heavyIdx acn A)).bind fun s => .ok (resc * t + s * g)

/-! ## Charge distribution -/

/-- Odd-even factor (2444-2456) of charge `iz` and mass `i`; `fz`, `fn` are `FZZ0[i]`, `FNZ0[i]`. The
condition `(i+1)%2==0` is "`i` is odd". -/
def oddEven (fz fn : K) (iz i : Int) : K :=
  if iz % 2 = 0 then (if i % 2 = 0 then fz * fn else fz / fn)
  else (if (i + 1) % 2 = 0 then fn / fz else 1 / (fz * fn))

/-- Wahl parameters of one mass: most probable charge, width and odd-even factors. -/
structure Wahl (K : Type) where
  z0 : K
  c : K
  fz : K
  fn : K
  deriving DecidableEq, Repr

/-- The central charge `floor(Zp0+0.5)` (2430). -/
def Wahl.iz (p : Wahl K) : Int := ⌊p.z0 + 1 / 2⌋

/-- Unnormalised entry for index `j` (2433-2469); `erf` is the error function, `r2` is `sqrt(2)`. -/
def rawZA (erf : K → K) (r2 : K) (p : Wahl K) (dZ i : Int) (j : Nat) : K :=
  let iz := p.iz + j - dZ
  if 0 < p.c then
    oddEven p.fz p.fn iz i * (1 / 2) *
      (erf (((iz : K) - p.z0 + 1 / 2) / (r2 * p.c)) - erf (((iz : K) - p.z0 - 1 / 2) / (r2 * p.c)))
  else if (j : Int) = dZ then 1 else 0

/-- The column `YZA[.][i]` before normalisation. -/
def rawColumn (erf : K → K) (r2 : K) (p : Wahl K) (dZ : Nat) (i : Int) : List K :=
  (List.range (2 * dZ + 1)).map (rawZA erf r2 p dZ i)

/-- Normalisation of a column to the mass yield (2472-2487). -/
def normColumn (ya : K) (col : List K) : List K :=
  if col.sum = 0 then col else col.map fun v => v * ya / col.sum

/-- `YZA[.][i]` (2472-2478). -/
def column (erf : K → K) (r2 : K) (p : Wahl K) (dZ : Nat) (i : Int) (ya : K) : List K :=
  normColumn ya (rawColumn erf r2 p dZ i)

/-- The writes `YZA2[iZ][i] = ...` of one mass (2438, 2461, 2466) into the column `old` of that array. -/
def putWindow : List K → Int → List K → Res (List K)
  | [], _, t => .ok t
  | v :: vs, z, t => (writeAt t z v).bind fun t => putWindow vs (z + 1) t

/-- `YZA2[.][i]` (2437-2487): entries outside the window keep what an earlier call left there and take
part in the normalisation. -/
def column2 (erf : K → K) (r2 : K) (p : Wahl K) (dZ : Nat) (i : Int) (ya : K) (old : List K) : Res (List K) :=
  (putWindow (rawColumn erf r2 p dZ i) (p.iz - dZ) old).bind fun t => .ok (normColumn ya t)

/-- `maxYieldZ[i]` (5142-5147). -/
def maxZ (col2 : List K) : K := maxOf col2

/-! ## Charge yields -/

/-- `buildYZ` 2519-2526 for the charges `Zmin..Zmax`: `rows` holds, for each of these charges, the entries
`YZA2[Z][A]` for `A` in `[Amin, Amax]`. The running sum is reset for each charge. -/
def yzRaw (rows : List (List K)) : List K := rows.map List.sum

/-- The value of `sum` after the loop (2521, 2525): the yield of the last charge. -/
def yzNorm (rows : List (List K)) : K := (yzRaw rows).getLast?.getD 0

/-- `YZ` after `buildYZ`. -/
def buildYZ (rows : List (List K)) : List K :=
  if yzNorm rows = 0 then yzRaw rows else (yzRaw rows).map (· / yzNorm rows)

end CGMF.Yld

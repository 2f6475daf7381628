import Verif.Model.Basics
import Mathlib.Analysis.SpecialFunctions.Pow.Real

/-!
# Level densities

Model of libcgmf/src/levden.cpp (Gilbert-Cameron level densities with Ignatyuk's shell correction), of
`statSetupLevelDensityParameter` and `statSetupLevelDensity` (setup.cpp:192-237), of the retrieval of
parameters (kcksyst.cpp:191-217) and of the use of the spin cut-off in popinit.cpp.

Arithmetic is exact, over the real numbers.  An expression whose `double` is infinite or not a number (division by
zero, root or logarithm of a number that is not positive) has the outcome `ub`.
-/

namespace CGMF.LevDen

noncomputable section

/-- `LevelDensity` (libcgmf/include/structur.h:174-195). -/
structure Ldp where
  matchE : ℝ
  shell : ℝ
  temp : ℝ
  e0 : ℝ
  a : ℝ
  pairing : ℝ
  spinCut : ℝ
  sigma0 : ℝ

/-- `ldShellCorrection` (levden.cpp:261-271); the inner test `u==0.0` can never be true. -/
def shellCorrection (u astar dw mass : ℝ) : ℝ :=
  let gamma := 31 / 100 * mass ^ (-(1 / 3) : ℝ)
  if 0 < u then astar * (1 + (1 - Real.exp (-gamma * u)) * dw / u) else astar

/-- `ldSpinCutoff` (levden.cpp:244-255). -/
def spinCutoff (u a mass sig0 : ℝ) : Res ℝ :=
  if a ≤ 0 ∨ mass < 0 then .ub
  else
    let u := if u < 1 / 2 then 1 / 2 else u
    .ok (max (√(6945 / 1000000 * √(u / a) * mass ^ (5 / 3 : ℝ))) sig0)

/-- `ldFermiGas` (levden.cpp:223-230). -/
def fermiGas (u a s : ℝ) : Res ℝ :=
  if u < 0 then .ok 0
  else if u = 0 ∨ a ≤ 0 ∨ s = 0 then .ub
  else .ok (1 / (12 * √2) * Real.exp (2 * √(a * u)) / (a ^ (1 / 4 : ℝ) * u ^ (5 / 4 : ℝ)) / s)

/-- `ldConstantTemperature` (levden.cpp:235-238). -/
def constTemp (e e0 temp : ℝ) : Res ℝ := if temp = 0 then .ub else .ok (Real.exp ((e - e0) / temp) / temp)

/-- `ldDensityParameter` (levden.cpp:62-76). -/
def densityParameter (ex mass : ℝ) (p : Ldp) : ℝ :=
  if p.matchE = 0 then p.a
  else if ex < p.matchE then shellCorrection (p.matchE - p.pairing) p.a p.shell mass
  else shellCorrection (ex - p.pairing) p.a p.shell mass

/-- `ldLevelDensity` (levden.cpp:39-57): the density and the new value of `ldp->spin_cutoff`, which stays what it was
when there is no matching energy. -/
def levelDensity (ex mass : ℝ) (p : Ldp) : Res (ℝ × ℝ) :=
  if p.matchE = 0 then (constTemp ex p.e0 p.temp).bind fun d => .ok (d, p.spinCut)
  else
    let u := ex - p.pairing
    let a := densityParameter ex mass p
    (spinCutoff u a mass p.sigma0).bind fun sc =>
      (if ex < p.matchE then constTemp ex p.e0 p.temp else fermiGas u a sc).bind fun d => .ok (d, sc)

/-- `ldSpinDistribution` (levden.cpp:82-92). -/
def spinDistribution (j sc sc0 : ℝ) : Res ℝ :=
  let s := max sc sc0
  if s = 0 then .ub
  else
    let r := (j + 1 / 2) * Real.exp (-(j + 1 / 2) * (j + 1 / 2) / (2 * s * s)) / (s * s)
    .ok (if r < 1 / 10 ^ 10 then 0 else r)

/-- `ldParityDistribution` (levden.cpp:98-104). -/
def parityDistribution (pt : Int) : ℝ := if 0 < pt then 1 / 2 else 1 - 1 / 2

/-- `ldLevelSpinCutoff` (levden.cpp:110-120) from the spins of the first `n` levels. -/
def levelSpinCutoff (spins : List ℝ) : ℝ :=
  if spins.length ≤ 1 then 0 else √((spins.map fun s => (s + 1) * s).sum / (2 * (spins.length : ℝ)))

/-! ## Connecting constant temperature and Fermi gas -/

/-- Temperature and density parameter at the trial energy `ex` (levden.cpp:140-144). -/
def tgTemp (mass lve : ℝ) (p : Ldp) (ex : ℝ) : Res (ℝ × ℝ) :=
  let ux := ex - p.pairing
  let a := shellCorrection (max (lve - p.pairing) ux) p.a p.shell mass
  if ux ≤ 0 ∨ a < 0 then .ub
  else
    let d := √(a / ux) - 3 / (2 * ux)
    if d = 0 then .ub else .ok (1 / d, a)

/-- The two energy shifts `e01` and `e02` (levden.cpp:153-154). -/
def tgShifts (mass lve lvn : ℝ) (p : Ldp) (ex t a : ℝ) : Res (ℝ × ℝ) :=
  let ux := ex - p.pairing
  if lve ≤ 0 then .ub
  else
    (spinCutoff ux a mass p.sigma0).bind fun s => (fermiGas ux a s).bind fun fg =>
      if t * fg ≤ 0 then .ub
      else .ok (t * Real.log ((Real.exp (lve / t) - 1) / lvn), ex - t * Real.log (t * fg))

/-- The bisection (levden.cpp:138-159) with `n` further passes allowed by the counter `i`: temperature, shift and
matching energy, all zero if no connection is found. -/
def tgLoop (mass lve lvn : ℝ) (p : Ldp) : Nat → ℝ → ℝ → Res (ℝ × ℝ × ℝ)
  | 0, ex1, ex2 => (tgTemp mass lve p ((ex1 + ex2) / 2)).bind fun _ => .ok (0, 0, 0)
  | n + 1, ex1, ex2 =>
    let ex := (ex1 + ex2) / 2
    (tgTemp mass lve p ex).bind fun ta =>
      if ta.1 < 0 then .ok (0, 0, 0)
      else (tgShifts mass lve lvn p ex ta.1 ta.2).bind fun e =>
        let eps := e.1 - e.2
        if 1 / 1000000 < |eps| then
          (if eps < 0 then tgLoop mass lve lvn p n ex ex2 else tgLoop mass lve lvn p n ex1 ex)
        else .ok (ta.1, e.1, ex)

/-- `ldTGconnect` (levden.cpp:126-164): `i` admits 101 passes. -/
def tgConnect (mass lve lvn : ℝ) (p : Ldp) : Res Ldp :=
  if lvn ≤ 2 then .ok p
  else
    let a := shellCorrection (lve - p.pairing) p.a p.shell mass
    if a = 0 then .ub
    else (tgLoop mass lve lvn p 101 (max p.pairing (9 / (4 * a))) 100).bind fun r =>
      .ok { p with temp := r.1, e0 := r.2.1, matchE := r.2.2 }

/-- The bisection of `ldTextrapolate` (levden.cpp:178-197): density parameter and `ux`; `none` is the break at
line 188. -/
def txLoop (mass : ℝ) (p : Ldp) : Nat → ℝ → ℝ → Res (Option (ℝ × ℝ))
  | n, ex1, ex2 =>
    let ex := (ex1 + ex2) / 2
    let ux := ex - p.pairing
    if p.temp = 0 ∨ ux = 0 then .ub
    else
      let b := 1 / p.temp + 3 / 2 / ux
      let a := b * b * ux
      (constTemp ex p.e0 p.temp).bind fun r1 => (spinCutoff ux a mass p.sigma0).bind fun s =>
        (fermiGas ux a s).bind fun r2 =>
          match n with
          | 0 => .ok none
          | n + 1 =>
            let eps := r1 - r2
            if 1 / 1000000 < |eps| then
              (if eps < 0 then txLoop mass p n ex1 ex else txLoop mass p n ex ex2)
            else .ok (some (a, ux))

/-- `ldTextrapolate` (levden.cpp:170-203). -/
def tExtrapolate (mass lve : ℝ) (p : Ldp) : Res Ldp :=
  (txLoop mass p 101 (max p.pairing lve) 100).bind fun r =>
    match r with
    | none => .ok { p with matchE := 0 }
    | some (a, ux) =>
      if 0 < a then
        let f := shellCorrection ux 1 p.shell mass
        if f = 0 then .ub else .ok { p with a := a / f, matchE := ux + p.pairing }
      else .ok p

/-! ## Set-up for a nucleus -/

/-- One row of the table `kcksyst` (kcksyst.cpp:135): pairing, shell correction, matching energy, `a`, temperature,
shift. -/
structure KckRow where
  pairing : ℝ
  shell : ℝ
  matchE : ℝ
  a : ℝ
  temp : ℝ
  e0 : ℝ

/-- `getkcksystdat` (kcksyst.cpp:191-217): a zero shell correction counts as absent.  `spin_cutoff` and `sigma0` of the
structure are left alone. -/
def getKck (row : KckRow) (p : Ldp) : Res Ldp :=
  if row.shell = 0 then .exit
  else .ok { p with pairing := row.pairing, shell := row.shell, matchE := row.matchE, a := row.a,
                    temp := row.temp, e0 := row.e0 }

/-- `kckAsymptoticLevelDensity` (kcksyst.cpp:93-97). -/
def asymptoticA (a : ℝ) : ℝ := 126181 / 1000000 * a + 752191 / 10000000000 * a * a

/-- `kckSpinCutoff` (kcksyst.cpp:103-107). -/
def kckSpinCutoff (a : ℝ) : ℝ := √(465 / 10000 * a + 4296 / 1000)

/-- `kckTemperature` (kcksyst.cpp:113-118). -/
def kckTemperature (a dw : ℝ) : Res ℝ :=
  if 1 - 1 / 10 * dw < 0 then .ub else .ok (470582 / 10000 * a ^ (-(893714 / 1000000) : ℝ) * √(1 - 1 / 10 * dw))

/-- `kckE0` (kcksyst.cpp:124-130). -/
def kckE0 (a pairing dw : ℝ) : Res ℝ :=
  (kckTemperature a dw).bind fun t => .ok (pairing - 16 / 100 * dw + t * (-(1380 / 100000) * a - 1379 / 1000))

/-- `statSetupLevelDensityParameter` up to line 216 (setup.cpp:192-216); `spins` and `lve` are the spins of the
discrete levels and the energy of the highest, `mass` the mass number. -/
def setup (row : KckRow) (mass : ℝ) (spins : List ℝ) (lve : ℝ) (old : Ldp) : Res Ldp :=
  (getKck row old).bind fun p =>
    let p := { p with a := asymptoticA mass }
    let s0 := levelSpinCutoff spins
    let p := { p with sigma0 := if s0 = 0 then √(kckSpinCutoff mass) else s0 }
    (tgConnect mass lve (spins.length : ℝ) p).bind fun p =>
      if p.matchE = 0 then
        (kckTemperature mass p.shell).bind fun t => (kckE0 mass p.pairing p.shell).bind fun e0 =>
          tExtrapolate mass lve { p with temp := t, e0 := e0 }
      else .ok p

/-- One bin of `statSetupLevelDensity` (setup.cpp:228-235) at excitation `ex`: the densities (even, odd) for the spins
`js`, and the structure afterwards. -/
def densityBin (ex mass : ℝ) (js : List ℝ) (p : Ldp) : Res (List (ℝ × ℝ) × Ldp) :=
  (levelDensity ex mass p).bind fun d =>
    let go : List ℝ → Res (List (ℝ × ℝ)) := fun js =>
      js.foldr (fun j acc => (spinDistribution j d.2 p.sigma0).bind fun sd => acc.bind fun rest =>
        .ok ((d.1 * sd * parityDistribution 1, d.1 * sd * parityDistribution (-1)) :: rest)) (.ok [])
    (go js).bind fun row => .ok (row, { p with spinCut := d.2 })

/-- All bins of `statSetupLevelDensity` (setup.cpp:227-236). -/
def densityTable (mass : ℝ) (js : List ℝ) : List ℝ → Ldp → Res (List (List (ℝ × ℝ)) × Ldp)
  | [], p => .ok ([], p)
  | ex :: exs, p => (densityBin ex mass js p).bind fun r => (densityTable mass js exs r.2).bind fun t =>
      .ok (r.1 :: t.1, t.2)

/-- The spin cut-off as `statPopinitLevden` leaves it (popinit.cpp:118-121), with the scale `sf`. -/
def popinitCut (ex mass sf : ℝ) (p : Ldp) : Res Ldp :=
  (levelDensity ex mass p).bind fun d =>
    .ok { p with spinCut := if 0 < sf then d.2 * sf else d.2 }

end

end CGMF.LevDen

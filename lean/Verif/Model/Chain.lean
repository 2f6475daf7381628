import Verif.Model.Cascade

/-!
# The chain of nuclei reached by neutron emission

libcgmf/src/setup.cpp `statTotalNeutrons` (398-418), `statSetupInitSystem` (48-97);
libcgmf/src/specmc.cpp `specMCMainFission` (113-197).  `INCLUDE_NEUTRON_EMISSION` is true.
-/

namespace CGMF.MC

open CGMF.Grid CGMF.HF

variable {K : Type} [Field K] [LinearOrder K]

/-- Tables: mass excess (masstable.cpp:39-62, stops the process when a nucleus is missing), the neutron
mass excess `ENEUTRON`, the discrete levels (`getDiscreteLevels`), and the number of nuclei
`MAX_COMPOUND`. -/
structure Tables (K : Type) where
  mx : Int → Int → Res K
  en : K
  levels : Int → Int → List (Level K)
  maxc : Nat

/-- setup.cpp:404-411: the loop, at most `fuel` passes (10 in the code). -/
def countOpen (tb : Tables K) (z : Int) : Nat → Int → K → Res Nat
  | 0, _, _ => .ok 0
  | fuel + 1, a, e => do
    let m1 ← tb.mx z (a - 1)
    let m0 ← tb.mx z a
    if e - (m1 + tb.en - m0) ≤ 0 then pure 0 else do
      let n ← countOpen tb z fuel (a - 1) (e - (m1 + tb.en - m0))
      pure (n + 1)

/-- setup.cpp:398-418 `statTotalNeutrons`. -/
def totalNeutrons (tb : Tables K) (z a : Int) (E : K) : Res Nat := do
  let n ← countOpen tb z 10 a E
  pure (if tb.maxc ≤ n then tb.maxc - 1 else n)

/-- setup.cpp:71-72: mass excesses of the nuclei `0..n`. -/
def masses (tb : Tables K) (z : Int) : Nat → Int → Res (List K)
  | 0, a => do
    let m ← tb.mx z a
    pure [m]
  | n + 1, a => do
    let m ← tb.mx z a
    let ms ← masses tb z n (a - 1)
    pure (m :: ms)

/-- setup.cpp:67-95: the nuclei with separation energy, status and residual of the neutron channel.
`e` is `max_energy` of the current nucleus; when the channel is closed the daughter keeps whatever
`max_energy` an earlier fragment left there (`stale`). -/
def initLoop (tb : Tables K) (stale : Nat → K) (z : Int) : List K → Nat → Int → K → List (Nuc K)
  | [], _, _, _ => []
  | [_], i, a, _ => [⟨z, a, tb.levels z a, 0, false, i + 1⟩]
  | m :: m' :: ms, i, a, e =>
    ⟨z, a, tb.levels z a, m' + tb.en - m, decide (m' + tb.en - m < e), i + 1⟩ ::
      initLoop tb stale z (m' :: ms) (i + 1) (a - 1)
        (if m' + tb.en - m < e then e - (m' + tb.en - m) else stale (i + 1))

/-- setup.cpp:48-97 `statSetupInitSystem`.  `ncl` has `MAX_COMPOUND` entries. -/
def initSystem (tb : Tables K) (stale : Nat → K) (z a : Int) (nemit : Nat) (E : K) : Res (List (Nuc K)) :=
  if tb.maxc ≤ nemit then .ub else do
    let ms ← masses tb z nemit a
    pure (initLoop tb stale z ms 0 a E)

/-- specmc.cpp:113-197 `specMCMainFission` up to the record: the decay of fragment `(z, a)` with
excitation energy `E`, spin and parity. -/
def fragment (tb : Tables K) (par : Par K) (st : St K) (stale : Nat → K) (z a : Int) (E : K)
    (jint p0 : Int) : Rnd K (St K) := do
  let n ← Rnd.lift (totalNeutrons tb z a E)
  let chain ← Rnd.lift (initSystem tb stale z a n E)
  decay { par with chain := chain } st E jint p0

end CGMF.MC

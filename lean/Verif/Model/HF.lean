import Verif.Model.Grid
import Verif.Model.Rnd

/-!
# Hauser-Feshbach populations from one parent state

libcgmf/src/gampop.cpp, libcgmf/src/parpop.cpp, libcgmf/src/stattrans.cpp (25-81) and
libcgmf/src/specmain.cpp `specCompoundDecay` (267-310), `specTransmissionSum` (319-334),
`specPopulationBypass` (347-389), for the parent in bin `k0 = 0` as used by the Monte Carlo
(`specmc.cpp:346`).  Transmission coefficients, level densities and `lmax` come from the optical model
and the strength functions (omcalc.cpp, gtrans.cpp, levden.cpp) and are parameters.

The two passes of the code (`sumall`, then `hauser`) run the same loops; the first adds the raw terms,
the second adds the terms times `q` to the populations.  The model builds the list of raw terms once.
The spectra `spc` are not modelled.
-/

namespace CGMF.HF

open CGMF.Grid

variable {K : Type} [Field K] [LinearOrder K]

/-- Multipoles (gampop.cpp:39-41, 57-59). -/
inductive Mult where
  | E1 | M1 | E2
  deriving DecidableEq, Repr

/-- Multipolarity `l`: `E1_MULTIPOL = 1`, `M1_MULTIPOL = 1`, `E2_MULTIPOL = 2`. -/
def Mult.l : Mult → Nat
  | .E1 => 1
  | .M1 => 1
  | .E2 => 2

/-- Parity change, the `pg` argument. -/
def Mult.pg : Mult → Int
  | .E1 => -1
  | .M1 => 1
  | .E2 => 1

/-- A daughter state: continuum bin, spin index and parity, or discrete level. -/
inductive Cell where
  | cont (k : Nat) (idx : Int) (even : Bool)
  | disc (i : Nat)
  deriving DecidableEq, Repr

/-- `for(int j=a ; j<=b ; j+=2)` -/
def steps2 (a b : Int) : List Int := (List.range ((b - a) / 2 + 1).toNat).map fun i : Nat => a + 2 * i

/-- `(int)(2.0*halfint(lev[0].spin))` with the macro of cgm.h:27. -/
def i0 (n : Nuc K) : Int :=
  match n.levels.head? with
  | some l => if l.spin2 % 2 = 1 then 1 else 0
  | none => 0

/-- gampop.cpp:80-108 `specTc2c`: raw terms `x0` with the cells they are added to. -/
def tc2c (maxJ : Nat) (i0 : Int) (mu : Mult) (k : Nat) (p0 j0 : Int) (tg bw : K)
    (dens : Nat → Int → Bool → K) : List (Cell × K) :=
  let j1min := |j0 - 2 * mu.l|
  let j1max := min (j0 + 2 * mu.l) (2 * maxJ - 1)
  let even := decide (mu.pg * p0 = 1)
  ((steps2 j1min j1max).filter (fun j1 => ¬ (j0 = 0 ∧ j1 = 0))).map fun j1 =>
    let idx := (j1 - i0).tdiv 2
    (.cont k idx even, tg * (dens k idx even * bw))

/-- gampop.cpp:87-88: the spin cut-off `jmax` follows the largest daughter spin. -/
def jmaxGamma (maxJ : Nat) (j0 : Int) (mu : Mult) (jmax : Int) : Int :=
  max jmax ((min (j0 + 2 * mu.l) (2 * maxJ - 1)).tdiv 2)

/-- gampop.cpp:114-134 `specTc2d`. -/
def tc2d (mu : Mult) (i : Nat) (lev : Level K) (p0 j0 : Int) (tg : K) : List (Cell × K) :=
  if j0 = 0 ∧ lev.spin2.tdiv 2 = 0 then []
  else if |j0 - 2 * mu.l| ≤ lev.spin2 ∧ lev.spin2 ≤ j0 + 2 * mu.l then
    if mu.pg = p0 * lev.parity then [(.disc i, tg)] else []
  else []

/-- What the optical model and the strength functions deliver for one parent state. -/
structure Phys (K : Type) where
  /-- `tg[mult][k1]` (stattrans.cpp:101-107) -/
  tgC : Mult → Nat → K
  /-- gampop.cpp:53-55 -/
  tgD : Mult → Nat → K
  /-- `n->density` of the parent -/
  dens0 : Nat → Int → Bool → K
  /-- `n->density` of the daughter -/
  dens1 : Nat → Int → Bool → K
  /-- `omCalc` for continuum bins: number of partial waves and transmission coefficients -/
  lmaxC : Nat → Int
  tranC : Nat → Nat → K
  /-- `omCalc` for discrete levels -/
  lmaxD : Nat → Int
  tranD : Nat → Nat → K

/-- gampop.cpp:32-74 `specTransitionGamma`, `k0 = 0`. -/
def gammaTerms (maxJ : Nat) (w : K) (n : Nuc K) (m : Mesh K) (ph : Phys K) (p0 j0 : Int) :
    List (Cell × K) :=
  ((List.range' 1 (m.ncont - 1)).flatMap fun k1 =>
    [Mult.E1, Mult.M1, Mult.E2].flatMap fun mu =>
      tc2c maxJ (i0 n) mu k1 p0 j0 (ph.tgC mu k1) w ph.dens0) ++
  n.levels.zipIdx.flatMap fun li =>
    [Mult.E1, Mult.M1, Mult.E2].flatMap fun mu => tc2d mu li.2 li.1 p0 j0 (ph.tgD mu li.2)

/-- The pairs `(l, sp)` of parpop.cpp:90-94: `l = 0..lmax`, `sp = 1, -1`, `jp = 2l + sp >= 0`. -/
def waves (lmax : Int) : List (Nat × Int) :=
  ((List.range (lmax + 1).toNat).flatMap fun l : Nat => [(l, (1 : Int)), (l, -1)]).filter
    (fun w => 0 ≤ 2 * (w.1 : Int) + w.2)

/-- Parity of a partial wave. -/
def pl (l : Nat) : Int := if l % 2 = 1 then -1 else 1

/-- `tj_index` (parpop.cpp:22-24) for spin one half. -/
def tjIndex (w : Nat × Int) : Nat := ((2 * (w.1 : Int) * 3 + (1 - w.2)).tdiv 2).toNat

/-- parpop.cpp:84-123 `specTransitionParticleCont`. -/
def parCont (maxJ : Nat) (i1 : Int) (k1 : Nat) (pcn jcn : Int) (lmax : Int) (tran : Nat → K) (bw : K)
    (dens : Nat → Int → Bool → K) : List (Cell × K) :=
  (waves lmax).flatMap fun w =>
    let jp := 2 * (w.1 : Int) + w.2
    (steps2 |jcn - jp| (min (jcn + jp) (2 * ((maxJ : Int) - 1)))).map fun j1 =>
      let idx := (j1 - i1).tdiv 2
      let even := decide (pl w.1 * pcn = 1)
      (.cont k1 idx even, tran (tjIndex w) * (dens k1 idx even * bw))

/-- parpop.cpp:98-101, 121: `jtop/2` for one continuum bin. -/
def jtopHalf (maxJ : Nat) (jcn lmax : Int) : Int :=
  ((waves lmax).foldl (fun t w => max t (min (jcn + (2 * (w.1 : Int) + w.2)) (2 * ((maxJ : Int) - 1)))) 0).tdiv 2

/-- parpop.cpp:129-159 `specTransitionParticleDisc`. -/
def parDisc (k1 : Nat) (lev : Level K) (pcn jcn : Int) (lmax : Int) (tran : Nat → K) :
    List (Cell × K) :=
  (waves lmax).flatMap fun w =>
    let jp := 2 * (w.1 : Int) + w.2
    if pl w.1 ≠ pcn * lev.parity then []
    else if |jcn - jp| ≤ lev.spin2 ∧ lev.spin2 ≤ jcn + jp then [(.disc k1, tran (tjIndex w))]
    else []

/-- stattrans.cpp:43-49, 74-79: closed channels (negative centre-of-mass energy) keep `lmax = 0`. -/
def lmaxOpen (ecms : K) (lmax : Int) : Int := if ecms < 0 then 0 else lmax

/-- parpop.cpp:36-78 `specTransitionParticle`, `k0 = 0`; entries with `lmax <= 0` are skipped. -/
def neutronTerms (maxJ : Nat) (w : K) (n0 n1 : Nuc K) (m0 m1 : Mesh K) (ph : Phys K) (pcn jcn : Int) :
    List (Cell × K) :=
  ((List.range m1.ncont).flatMap fun k1 =>
    let lm := lmaxOpen (m0.exc 0 - m1.exc k1 - n0.sn) (ph.lmaxC k1)
    if lm ≤ 0 then [] else parCont maxJ (i0 n1) k1 pcn jcn lm (ph.tranC k1) w ph.dens1) ++
  n1.levels.zipIdx.flatMap fun li =>
    let lm := lmaxOpen (m0.exc 0 - li.1.energy - n0.sn) (ph.lmaxD li.2)
    if lm ≤ 0 then [] else parDisc li.2 li.1 pcn jcn lm (ph.tranD li.2)

/-- Sum of raw terms. -/
def total (ts : List (Cell × K)) : K := (ts.map Prod.snd).sum

/-- Population of a cell: everything that was added to it. -/
def popOf (ts : List (Cell × K)) (c : Cell) : K := ((ts.filter (fun t => t.1 = c)).map Prod.snd).sum

/-! ## Forced transitions -/

/-- E1-like candidate of specmc.cpp:376-377, 495-496, specmain.cpp:356-357: opposite parity,
`|spin - j| < 2` and `1 <= spin + j`, where `j` is the spin *index* of the parent. -/
def e1Candidate (l : Level K) (p j : Int) : Bool :=
  decide (¬ 0 < l.parity * p) && decide (|l.spin2 - 2 * j| < 4) && decide (2 ≤ l.spin2 + 2 * j)

/-- specmc.cpp:374-384 (also 493-503 and specmain.cpp:354-364): one random number per candidate, the
largest wins. -/
def pickE1 (p j : Int) : List (Level K) → Nat → K → Option Nat → Rnd K (Option Nat)
  | [], _, _, best => pure best
  | l :: ls, i, xpr, best =>
    if e1Candidate l p j then do
      let x ← Rnd.draw
      if xpr < x then pickE1 p j ls (i + 1) x (some i) else pickE1 p j ls (i + 1) xpr best
    else pickE1 p j ls (i + 1) xpr best

/-- specmc.cpp:387-396, 505-513: first level with the smallest `|spin - j|` below 100 (doubled: 200). -/
def closest (j : Int) : List (Level K) → Nat → Int → Option Nat → Option Nat
  | [], _, _, best => best
  | l :: ls, i, d, best =>
    if |l.spin2 - 2 * j| < d then closest j ls (i + 1) |l.spin2 - 2 * j| (some i)
    else closest j ls (i + 1) d best

/-- specmain.cpp:367-374: last level with the smallest `|spin - j|`, at most 1000 (doubled: 2000). -/
def closestLast (j : Int) : List (Level K) → Nat → Int → Option Nat → Option Nat
  | [], _, _, best => best
  | l :: ls, i, d, best =>
    if |l.spin2 - 2 * j| ≤ d then closestLast j ls (i + 1) |l.spin2 - 2 * j| (some i)
    else closestLast j ls (i + 1) d best

/-- specmc.cpp:491-516: forced transition; no level at all means reading `lev[-1]`. -/
def forced (levels : List (Level K)) (p j : Int) : Rnd K Nat := do
  let b ← pickE1 p j levels 0 (-1) none
  match b with
  | some i => pure i
  | none => Rnd.get (closest j levels 0 200 none)

/-- specmain.cpp:348-386 `specPopulationBypass`: index of the level that receives everything. -/
def bypass (levels : List (Level K)) (p j : Int) : Rnd K Nat := do
  let b ← pickE1 p j levels 0 (-1) none
  match b with
  | some i => pure i
  | none => Rnd.get (closestLast j levels 0 2000 none)

/-! ## One compound decay -/

/-- Populations after one decay step: additions to parent-nucleus and daughter-nucleus states. -/
structure Pops (K : Type) where
  g : List (Cell × K)
  n : List (Cell × K)
  jmax0 : Int
  jmax1 : Int

/-- Multiply raw terms by `q`. -/
def scale (q : K) (ts : List (Cell × K)) : List (Cell × K) := ts.map fun t => (t.1, t.2 * q)

/-- `jmax` of the parent after the gamma loops. -/
def jmax0After (maxJ : Nat) (j0 : Int) (ncont : Nat) (jmax : Int) : Int :=
  if ncont ≤ 1 then jmax
  else jmaxGamma maxJ j0 .E2 (jmaxGamma maxJ j0 .M1 (jmaxGamma maxJ j0 .E1 jmax))

/-- `jmax` of the daughter after the neutron loops. -/
def jmax1After (maxJ : Nat) (jcn : Int) (lms : List Int) (jmax : Int) : Int :=
  lms.foldl (fun j lm => if lm ≤ 0 then j else max j (jtopHalf maxJ jcn lm)) jmax

/-- specmain.cpp:275-277: the neutron channel is open. -/
def nOpen (n0 : Nuc K) (m0 : Mesh K) : Bool := n0.status && decide (¬ m0.exc 0 < n0.sn)

/-- specmain.cpp:267-310 `specCompoundDecay` for the single state of the Monte Carlo: parity `p`, spin
index `jdx`, population one in bin 0. -/
def compoundDecay (maxJ : Nat) (w : K) (n0 n1 : Nuc K) (m0 m1 : Mesh K) (ph : Phys K)
    (p jdx jmax0 jmax1 : Int) : Rnd K (Pops K) :=
  let j0 := 2 * jdx + i0 n0
  let g := gammaTerms maxJ w n0 m0 ph p j0
  let isOpen := nOpen n0 m0
  let n := if isOpen then neutronTerms maxJ w n0 n1 m0 m1 ph p j0 else []
  let jm0 := jmax0After maxJ j0 m0.ncont jmax0
  let jm1 := if isOpen then jmax1After maxJ j0
      ((List.range m1.ncont).map fun k1 => lmaxOpen (m0.exc 0 - m1.exc k1 - n0.sn) (ph.lmaxC k1)) jmax1
    else jmax1
  let tsum := total g + total n
  if tsum = 0 then do
    let i ← bypass n0.levels p jdx
    pure ⟨[(.disc i, 1)], [], jm0, jm1⟩
  else
    pure ⟨scale (1 / tsum) g, scale (1 / tsum) n, jm0, jm1⟩

end CGMF.HF

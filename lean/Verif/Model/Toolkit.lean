import Verif.Model.Parser
import Mathlib.Algebra.Order.Field.Rat
import Mathlib.Data.Rat.Floor

/-!
# Analysis of a history file

tools/CGMFtk/histories.py, the methods of `Histories` that compute averages, distributions and correlations
from the arrays set up by the constructor (66-150). The arrays are columns of the list of fragments read
(`Model/Parser.lean`), light and heavy alternating; `[::2]` is `evens`, `[1::2]` is `odds`. Numbers are
rational. A Python exception is `exit`; a NaN (mean of nothing, 0/0) is `ub`. The assumptions on numpy made
here: arrays of equal length are combined entry by entry, a length one is stretched, other lengths raise
`ValueError`; `+` on entries that are lists concatenates; `max` and `min` of nothing raise `ValueError`.
-/

namespace CGMF.Toolkit

open CGMF.Parser

/-! ## numpy -/

/-- Entry-wise operation on two arrays. -/
def bcast {α β γ : Type} (f : α → β → γ) (xs : List α) (ys : List β) : Res (List γ) :=
  if xs.length = ys.length then .ok (List.zipWith f xs ys)
  else match xs, ys with
    | [x], ys => .ok (ys.map (f x))
    | xs, [y] => .ok (xs.map (fun x => f x y))
    | _, _ => .exit

/-- `np.mean`. -/
def mean (xs : List ℚ) : Res ℚ := if xs = [] then .ub else .ok (xs.sum / xs.length)

/-- `np.max` and `np.min` of integers. -/
def maxI : List Int → Res Int
  | [] => .exit
  | x :: xs => .ok (xs.foldl max x)

def minI : List Int → Res Int
  | [] => .exit
  | x :: xs => .ok (xs.foldl min x)

/-- `q[mask]` with a mask computed from an array of the same length. -/
def select {α β : Type} (p : α → Bool) (as : List α) (q : List β) : Res (List β) :=
  if as.length = q.length then .ok (((as.zip q).filter fun x => p x.1).map Prod.snd) else .exit

/-- Number of entries of a list at least `eth`: `len(x[x>=Eth])`. -/
def atLeast (eth : ℚ) (xs : List ℚ) : Int := (xs.filter fun x => decide (eth ≤ x)).length

/-! ## Columns (66-150) -/

def nus (fs : List PyFrag) : List Int := fs.map (·.nn)
def nugs (fs : List PyFrag) : List Int := fs.map (·.ng)
def masses (fs : List PyFrag) : List Int := fs.map (·.a)
def nElab (fs : List PyFrag) : List (List ℚ) := fs.map fun f => f.lab.map (·.e)
def gElab (fs : List PyFrag) : List (List ℚ) := fs.map fun f => f.phot.map (·.e)
def preNu (fs : List PyFrag) : List Int := odds (fs.map (·.npn))
def preElab (fs : List PyFrag) : List (List ℚ) := odds (fs.map fun f => f.pren.map (·.e))

/-- `int(numberFragments/2)` (58). -/
def numberEvents (fs : List PyFrag) : Nat := fs.length / 2

/-- `self.nuLF+self.nuHF` and `self.nugLF+self.nugHF` (80, 86). -/
def total (xs : List Int) : Res (List Int) := bcast (· + ·) (evens xs) (odds xs)

/-! ## Average multiplicities and their distributions -/

def toQ (xs : List Int) : List ℚ := xs.map (fun i : Int => (i : ℚ))

/-- `nubar` (610-612). -/
def nubar (fs : List PyFrag) : Res ℚ := mean (toQ (nus fs))

/-- Neutrons per event with the pre-fission ones (616, 837). -/
def neutronTotals (fs : List PyFrag) : Res (List Int) := (total (nus fs)).bind fun t => bcast (· + ·) t (preNu fs)

/-- `nubartot` (614-616). -/
def nubartot (fs : List PyFrag) : Res ℚ := (neutronTotals fs).bind fun t => mean (toQ t)

/-- The distribution (839-845, 868-874): entry `i` is the number of values `i` over the number of events. `np.zeros`
of a negative number raises. -/
def distribution (tot : List Int) (n : Nat) : Res (List ℚ) :=
  (maxI tot).bind fun m =>
    if m + 1 < 0 then .exit
    else .ok ((List.range (m + 1).toNat).map fun i : Nat => ((tot.filter fun t => decide (t = (i : Int))).length : ℚ) / n)

/-- Neutron numbers above a threshold as computed by `Pnu` (828-835): `self.nElab` has an entry per fragment,
`self.preFissionNeutronElab` one per event. -/
def neutronCut (eth : ℚ) (fs : List PyFrag) : Res (List Int) :=
  (bcast (· ++ ·) (nElab fs) (preElab fs)).bind fun rows => .ok (rows.map (atLeast eth))

/-- `Pnu` (820-845). -/
def Pnu (eth : Option ℚ) (fs : List PyFrag) : Res (List ℚ) :=
  match eth with
  | some e => (neutronCut e fs).bind fun t => distribution t (numberEvents fs)
  | none => (neutronTotals fs).bind fun t => distribution t (numberEvents fs)

/-- Photons per event above a threshold (721-727, 858-864). -/
def photonCut (eth : ℚ) (fs : List PyFrag) : Res (List Int) :=
  (bcast (· ++ ·) (evens (gElab fs)) (odds (gElab fs))).bind fun rows => .ok (rows.map (atLeast eth))

/-- `Pnug` (851-874). -/
def Pnug (eth : Option ℚ) (fs : List PyFrag) : Res (List ℚ) :=
  match eth with
  | some e => (photonCut e fs).bind fun t => distribution t (numberEvents fs)
  | none => (total (nugs fs)).bind fun t => distribution t (numberEvents fs)

/-- `nubargtot` without time window (716-729); the default threshold is 0. -/
def nubargtot (eth : ℚ) (fs : List PyFrag) : Res ℚ := (photonCut eth fs).bind fun t => mean (toQ t)

/-- `nubarg` without time window (659-670). -/
def nubarg (eth : ℚ) (fs : List PyFrag) : Res ℚ := mean (toQ ((gElab fs).map (atLeast eth)))

/-! ## Photons against time -/

/-- Number of photons of age at most `t` and energy at least `eth`: `len(photonAges[mask])`. -/
def until_ (ages es : List ℚ) (eth t : ℚ) : Res ℚ :=
  (bcast (fun a e => decide (a ≤ t) && decide (eth ≤ e)) ages es).bind fun mask =>
    (select id mask ages).bind fun l => .ok (l.length : ℚ)

/-- `nug/float(self.numberEvents)` for every time. -/
def untilAll (ages es : List ℚ) (eth : ℚ) (n : Nat) : List ℚ → Res (List ℚ)
  | [] => .ok []
  | t :: ts => (until_ ages es eth t).bind fun x => (untilAll ages es eth n ts).bind fun xs => .ok (x / n :: xs)

/-- `nubarg(timeWindow=times)` (631-657): all photons of all fragments. -/
def nubargTime (eth : ℚ) (times : List ℚ) (fs : List PyFrag) : Res (List ℚ) :=
  untilAll (fs.map (·.ages)).flatten (gElab fs).flatten eth (numberEvents fs) times

/-- `nubargtot(timeWindow=times)` (685-714): the same after joining the fragments of an event. -/
def nubargtotTime (eth : ℚ) (times : List ℚ) (fs : List PyFrag) : Res (List ℚ) :=
  (bcast (· ++ ·) (evens (fs.map (·.ages))) (odds (fs.map (·.ages)))).bind fun a =>
    (bcast (· ++ ·) (evens (gElab fs)) (odds (gElab fs))).bind fun e =>
      untilAll a.flatten e.flatten eth (numberEvents fs) times

/-! ## Averages against mass -/

/-- Mean of the entries of `q` with mass `a`, zero if there are none (909-913). -/
def meanAt (as : List Int) (q : List ℚ) (a : Int) : Res ℚ :=
  (select (fun x => decide (x = a)) as q).bind fun r => if r = [] then .ok 0 else mean r

/-- Rows for the masses `lo`, `lo+1`, ... -/
def massRows (as : List Int) (q : List ℚ) (lo : Int) : Nat → Res (List (Int × ℚ))
  | 0 => .ok []
  | n + 1 => (meanAt as q lo).bind fun y => (massRows as q (lo + 1) n).bind fun r => .ok ((lo, y) :: r)

/-- `_qA` (880-913): `np.arange(np.min(self.A),np.max(self.A))` ends before the largest mass. -/
def qA (as : List Int) (q : List ℚ) : Res (List (Int × ℚ)) :=
  (minI as).bind fun lo => (maxI as).bind fun hi => massRows as q lo (hi - lo).toNat

/-- `nubarA` (915-917). -/
def nubarA (fs : List PyFrag) : Res (List (Int × ℚ)) := qA (masses fs) (toQ (nus fs))

/-- `nubargA` (919-939): the loop goes to the largest mass. -/
def nubargA (eth : ℚ) (fs : List PyFrag) : Res (List (Int × ℚ)) :=
  (minI (masses fs)).bind fun lo => (maxI (masses fs)).bind fun hi =>
    massRows (masses fs) (toQ ((gElab fs).map (atLeast eth))) lo (hi + 1 - lo).toNat

/-! ## Neutron-neutron angles -/

/-- Scalar product of the directions. -/
def dot (x y : Vec4) : ℚ := x.u * y.u + x.v * y.v + x.w * y.w

/-- The loop over `k` from `j` (1323, 1329). -/
def inner (ns : List Vec4) (j : Nat) : Nat → Nat → Res (List ℚ)
  | 0, _ => .ok []
  | m + 1, k => (readAt ns j).bind fun x => (readAt ns k).bind fun y =>
      (inner ns j m (k + 1)).bind fun r => .ok (dot x y :: r)

/-- The loop over `j` (1322, 1328): `m` values from `j`, `nu` is the number of neutrons. -/
def outer (ns : List Vec4) (nu : Nat) : Nat → Nat → Res (List ℚ)
  | 0, _ => .ok []
  | m + 1, j => (inner ns j (nu - j) j).bind fun r => (outer ns nu m (j + 1)).bind fun r' => .ok (r ++ r')

/-- Cosines of one fragment; an index beyond the list raises `IndexError`, `range` of a negative number is
empty. -/
def fragAngles (ns : List Vec4) (nu : Int) : Res (List ℚ) :=
  match outer ns nu.toNat nu.toNat 0 with
  | .ok r => .ok r
  | _ => .exit

/-- `nnangles` (1299-1336): lists for light, heavy and all fragments. -/
def nnangles (dirs : PyFrag → List Vec4) : List PyFrag → Res (List ℚ × List ℚ × List ℚ)
  | [] => .ok ([], [], [])
  | [_] => .exit
  | l :: h :: fs =>
    (fragAngles (dirs l) l.nn).bind fun a => (fragAngles (dirs h) h.nn).bind fun b =>
      (nnangles dirs fs).bind fun r => .ok (a ++ r.1, b ++ r.2.1, a ++ b ++ r.2.2)

/-! ## Histograms -/

/-- `np.histogram(xs, bins=edges)`: bins are half open except the last, which is closed. The edges
are taken to be increasing (numpy raises otherwise). -/
def histogram (xs : List ℚ) : List ℚ → List Nat
  | a :: b :: c :: es =>
    (xs.filter fun x => decide (a ≤ x) && decide (x < b)).length :: histogram xs (b :: c :: es)
  | [a, b] => [(xs.filter fun x => decide (a ≤ x) && decide (x ≤ b)).length]
  | _ => []

/-- `gammaMultiplicity` (1401-1462); `sel` is the choice of fragments (all, or those of one nucleus after
emission), `edges` the time bins of `np.linspace`. -/
def gammaMultiplicity (sel : PyFrag → Bool) (eth : ℚ) (edges : List ℚ) (fs : List PyFrag) : Res (List Nat) :=
  (select (fun e => decide (eth ≤ e)) (gElab (fs.filter sel)).flatten ((fs.filter sel).map (·.ages)).flatten).bind
    fun ages => .ok (histogram ages edges)

/-- Spectrum `hlab/degrid/nn` of `pfns` (1037-1040) on the grid `edges`; no neutron in the grid gives 0/0. -/
def spectrum (edges xs : List ℚ) : Res (List ℚ) :=
  let h := histogram xs edges
  if h.sum = 0 then .ub
  else .ok (List.zipWith (fun (c : Nat) (w : ℚ) => (c : ℚ) / w / (h.sum : Nat)) h
    (List.zipWith (fun b a => b - a) edges.tail edges))

/-- `pfns` (1019-1040): lists of heavy fragment, light fragment and pre-fission neutrons joined event by event. -/
def pfns (eth : ℚ) (edges : List ℚ) (fs : List PyFrag) : Res (List ℚ) :=
  (bcast (· ++ ·) (odds (nElab fs)) (evens (nElab fs))).bind fun r =>
    (bcast (· ++ ·) r (preElab fs)).bind fun rows =>
      spectrum edges (rows.flatten.filter fun x => decide (eth ≤ x))

/-! ## Isomeric ratio -/

/-- `isomericRatio` (1468-1507): no fragment of the nucleus raises `ZeroDivisionError`. -/
def isomericRatio (thr : ℚ) (A Z : Int) (Jm Jgs : ℚ) (fs : List PyFrag) : Res ℚ :=
  let mine := fs.filter fun f => decide (f.a - f.nn = A) && decide (f.z = Z)
  let iso := (mine.filter fun f => f.ages.any fun t => decide (thr ≤ t)).length
  if mine.length = 0 then .exit
  else if Jgs < Jm then .ok ((iso : ℚ) / mine.length) else .ok (1 - (iso : ℚ) / mine.length)

end CGMF.Toolkit

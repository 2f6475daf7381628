import Verif.Model.Prefission
import Verif.Model.YieldFiles

/-!
# The file of multi-chance fission probabilities

libcgmf/src/FissionFragments.cpp `readMultichanceFissionData` (5197-5320) with its text.  A file is a list of characters;
the conversion of a word to a number is a parameter, and a number is assumed to occupy a whole word, as in
`Model/Data.lean`.  A number that no statement has written is `none`; reading it is undefined.
-/

namespace CGMF.Pre

open CGMF.Data CGMF.Text CGMF.YFile

variable {K : Type} [Field K] [LinearOrder K]

/-- The first three numbers of a line (5229): nucleus, number of energies, largest number of neutrons.  A word that is no
number stores zero and ends the extractions, so that the next variable is not written. -/
def header (inum : List Char → Option Int) : List (List Char) → Res (Int × Int × Option Int)
  | w0 :: w1 :: w2 :: _ =>
    match inum w0 with
    | none => .ub
    | some id =>
      match inum w1 with
      | none => .ok (id, 0, none)
      | some ne => .ok (id, ne, some ((inum w2).getD 0))
  | _ => .ub

/-- `m` times `fissdata >> x` into an array from `new`. -/
def extractN (num : List Char → Option K) : Nat → In → List (Option K) × In
  | 0, s => ([], s)
  | m + 1, s =>
    let r := extract 0 num s
    let t := extractN num m r.2
    (r.1 :: t.1, t.2)

/-- The rows (5247-5250): an energy and `m` probabilities. -/
def extractRows (num : List Char → Option K) (m : Nat) : Nat → In → List (Option K × List (Option K)) × In
  | 0, s => ([], s)
  | n + 1, s =>
    let r := extract 0 num s
    let p := extractN num m r.2
    let t := extractRows num m n p.2
    ((r.1, p.1) :: t.1, t.2)

/-- Reading an entry of `Pf`. -/
def knownPf (rows : List (Option K × List (Option K))) (i j : Int) : Res K :=
  (readAt rows i).bind fun r => known r.2 j

/-- Lines 5262-5267 for one number of neutrons. -/
def rawOne (rows : List (Option K × List (Option K))) (e : K) (i j : Int) : Res K :=
  (knownPf rows i j).bind fun p1 => (knownPf rows (i - 1) j).bind fun p0 =>
    (known (rows.map Prod.fst) i).bind fun e1 => (known (rows.map Prod.fst) (i - 1)).bind fun e0 =>
      .ok (if (p1 - p0) / (e1 - e0) ≠ 0 then (e - e0) * ((p1 - p0) / (e1 - e0)) + p0 else p1)

/-- The loop over `j` (5261), from `j` on, `m` entries. -/
def rawFrom (rows : List (Option K × List (Option K))) (e : K) (i : Int) : Nat → Nat → Res (List K)
  | _, 0 => .ok []
  | j, m + 1 => (rawOne rows e i j).bind fun p => (rawFrom rows e i (j + 1) m).bind fun ps => .ok (p :: ps)

/-- The search for the energy (5258-5259) from index `i` on, `n` energies left; none found leaves `emissprob` unset. -/
def rawFind (rows : List (Option K × List (Option K))) (e : K) (m : Nat) : Nat → Nat → Res (List K)
  | _, 0 => .ub
  | i, n + 1 =>
    (known (rows.map Prod.fst) i).bind fun x =>
      if e ≤ x then rawFrom rows e i 0 m else rawFind rows e m (i + 1) n

/-- Lines 5252-5272: the second test is made only when the first fails. -/
def rawInterp (rows : List (Option K × List (Option K))) (e : K) (m : Nat) : Res (List K) :=
  (known (rows.map Prod.fst) 0).bind fun e0 =>
    if e < e0 then .exit
    else (known (rows.map Prod.fst) ((rows.length : Int) - 1)).bind fun e1 =>
      if e1 < e then .exit else rawFind rows e m 0 rows.length

/-- What the function leaves behind: `barrier`, and `nemit`, `emissprob`, `emissprob_max`. -/
structure Left (K : Type) where
  barrier : List (Option K)
  multi : Multi K

/-- The block of the nucleus (5232-5306): `ne` energies, up to `nn` neutrons.  A negative number of elements in `new` is
an exception that nothing catches. -/
def block (num : List Char → Option K) (e : K) (nemit ne nn : Int) (s : In) : Res (Left K) :=
  if nn + 1 < 0 ∨ ne < 0 then .exit
  else
    let m := (nn + 1).toNat
    let b := extractN num m s
    let rows := extractRows num m ne.toNat b.2
    (rawInterp rows.1 e m).bind fun ps =>
      if nn < 0 then .ok ⟨b.1, ⟨-1, [], 0⟩⟩
      else .ok ⟨b.1, ⟨limit ps nn.toNat nemit, normTo (limit ps nn.toNat nemit + 1).toNat ps,
        maxOf ((normTo (limit ps nn.toNat nemit + 1).toNat ps).take (limit ps nn.toNat nemit + 1).toNat)⟩⟩

/-- `getline` repeated `k` times (5308-5310), with the buffer `c`. -/
def skip : Nat → List Char → In → List Char × In
  | 0, c, s => (c, s)
  | k + 1, _, s => skip k (getlineC 399 s).1 (getlineC 399 s).2

/-- `while (!fissdata.eof())` (5216-5312) with the buffer `c`; `none` when the nucleus is not found. -/
def chanceLoop (inum : List Char → Option Int) (num : List Char → Option K) (target : Int) (e : K) (nemit : Int) :
    Nat → List Char → In → Out (Option (Left K))
  | 0, _, _ => .more
  | f + 1, c, s =>
    if s.eof then .ok none
    else if c.head? = some '#' ∨ (pySplit c).length < 3 then
      chanceLoop inum num target e nemit f (getlineC 399 s).1 (getlineC 399 s).2
    else
      match header inum (pySplit c) with
      | .exit => .exit
      | .ub => .ub
      | .ok (id, ne, nn) =>
        if target = id then
          match nn with
          | none => .ub
          | some nn =>
            match block num e nemit ne nn s with
            | .ok l => .ok (some l)
            | .exit => .exit
            | .ub => .ub
        else
          chanceLoop inum num target e nemit f (skip (ne + 2).toNat c s).1 (skip (ne + 2).toNat c s).2

/-- `readMultichanceFissionData` (5197-5320) for the target `ZAIDc - 1`; `none` leaves all members alone. -/
def readChance (inum : List Char → Option Int) (num : List Char → Option K) (target : Int) (e : K) (nemit : Int)
    (fuel : Nat) (file : Option (List Char)) : Out (Option (Left K)) :=
  match file with
  | none => .exit
  | some t =>
    thenDo (chanceLoop inum num target e nemit fuel (getlineC 399 ⟨t, false, false⟩).1 (getlineC 399 ⟨t, false, false⟩).2)
      fun r => if r.isNone ∧ 0 < nemit then .exit else .ok r

end CGMF.Pre

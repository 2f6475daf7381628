import Verif.Model.Data
import Verif.Model.Ripl

/-!
# Text layer of the level file and two more tables

Model of `readDiscreteLevelData` (ripl2levels.cpp:60-204) from the characters of the file to the tables, of
`readkcksystdat` (kcksyst.cpp:140-184) and of `readRTA` with the lookup of the temperature ratio
(FissionFragments.cpp:1953-2000, 1691-1699).  Streams are those of `Model/Data.lean`; what is done with a level after its
records are read is in `Model/Ripl.lean`.  `atoi`, `atof` and twice `atof` (for spins) are parameters.
-/

namespace CGMF.LevelText

open CGMF.Data CGMF.Ripl

variable {K : Type} [Field K] [LinearOrder K]

/-- The conversions. -/
structure Conv (K : Type) where
  atoi : List Char → Int
  atof : List Char → K
  atof2 : List Char → Int

/-- `str.substr(pos, n)`: an exception that nothing catches beyond the end. -/
def substr (str : List Char) (pos n : Nat) : Res (List Char) :=
  if str.length < pos then .exit else .ok ((str.drop pos).take n)

/-- One gamma record (ripl2levels.cpp:150-153).  A negative final level, which the decay later uses as an index, counts
as undefined at once. -/
def gamLine (cv : Conv K) (str : List Char) : Res (Gam K) :=
  (substr str 0 3).bind fun a => (substr str 3 9).bind fun b => (substr str 12 10).bind fun c =>
    if cv.atoi a < 0 then .ub else .ok ⟨(cv.atoi a).toNat, cv.atof b, cv.atof c⟩

/-- The loop over the gamma records (149-154); `str` and the stream are carried on. -/
def gamLines (cv : Conv K) : Nat → List Char → In → Res (List (Gam K) × List Char × In)
  | 0, str, s => .ok ([], str, s)
  | n + 1, str, s =>
    (gamLine cv (getline s str).1).bind fun g =>
      (gamLines cv n (getline s str).1 (getline s str).2).bind fun r => .ok (g :: r.1, r.2)

/-- One level with its gamma records (131-154).  A negative count runs no loop and leaves `normalise` to set the one
transition to the ground state, as for a single record `0, 1, 0` (453-466). -/
def levelLine (cv : Conv K) (str : List Char) (s : In) : Res (Raw K × List Char × In) :=
  let l := (getline s str).1
  (substr l 0 10).bind fun e => (substr l 10 5).bind fun sp => (substr l 15 3).bind fun p =>
    (substr l 18 13).bind fun t => (substr l 31 3).bind fun n =>
      (gamLines cv (cv.atoi n).toNat l (getline s str).2).bind fun r =>
        .ok (⟨cv.atof e, cv.atof2 sp, cv.atoi p, cv.atof t, if cv.atoi n < 0 then [⟨0, 1, 0⟩] else r.1⟩, r.2)

/-- The loop over the levels (129-194): records, then `readLevel`. -/
def levelLines (cv : Conv K) (mb : Nat) : Nat → Nat → List (Level K) → List Char → In →
    Res (List (Level K) × List Char × In)
  | 0, _, lev, str, s => .ok (lev, str, s)
  | n + 1, i, lev, str, s =>
    (levelLine cv str s).bind fun r =>
      (readLevel mb i r.1 lev).bind fun lev' => levelLines cv mb n (i + 1) lev' r.2.1 r.2.2

/-- One nucleus (109-196) from its first line on.  `new Level[nol]` with a negative count throws. -/
def nucleus (cv : Conv K) (mb ml c : Nat) (db : DB K) (str : List Char) (s : In) : Res (DB K × List Char × In) :=
  (substr str 6 6).bind fun z => (substr str 12 5).bind fun n =>
    if (ml : Int) ≤ cv.atoi n then .exit
    else
      (writeAt db.zaid c (cv.atoi z)).bind fun zs =>
        if cv.atoi n < 0 then .exit
        else
          (levelLines cv mb (cv.atoi n).toNat 0 (List.replicate (cv.atoi n).toNat fresh) str s).bind fun r =>
            (writeAt db.levels c r.1).bind fun lv => .ok (⟨zs, lv⟩, r.2)

/-- `while(getline(fp,str))` (105-198). -/
def fileLoop (cv : Conv K) (mb ml : Nat) : Nat → Nat → DB K → List Char → In → Out (DB K)
  | 0, _, _, _, _ => .more
  | f + 1, c, db, str, s =>
    if (getline s str).2.fail then .ok db
    else if (getline s str).1.head? = some '#' then fileLoop cv mb ml f c db (getline s str).1 (getline s str).2
    else
      match nucleus cv mb ml c db (getline s str).1 (getline s str).2 with
      | .ok r => fileLoop cv mb ml f (c + 1) r.1 r.2.1 r.2.2
      | .exit => .exit
      | .ub => .ub

/-- `readDiscreteLevelData` (60-204); `str` still holds the file name. -/
def readText (cv : Conv K) (mb ml mn fuel : Nat) (name : List Char) (cwd dir : Option (List Char)) : Out (DB K) :=
  if (openData cwd dir).fail then .exit
  else fileLoop cv mb ml fuel 0 ⟨List.replicate mn 0, List.replicate mn []⟩ name (openData cwd dir)

/-! ## Level density parameters (kcksyst.cpp:140-184) -/

/-- One line: columns 0-4 and 5-10 the nucleus, then six numbers, the last two from a column that depends on the
matching energy (163-181). The table has `MAX_ZAID` rows.  The six numbers are stored together: a line too short for its
last columns stops the run here even if its nucleus is outside the table. -/
def kckLine (cv : Conv K) (str : List Char) (tab : List (List K)) : Res (List (List K)) :=
  (substr str 0 5).bind fun z => (substr str 5 6).bind fun a =>
    (substr str 11 13).bind fun p => (substr str 24 13).bind fun e => (substr str 37 10).bind fun m =>
      (substr str 47 10).bind fun as =>
        (substr str (if 0 < cv.atof m then 57 else 77) 10).bind fun t =>
          (substr str (if 0 < cv.atof m then 67 else 87) 10).bind fun e0 =>
            writeAt tab (1000 * cv.atoi z + cv.atoi a)
              [cv.atof p, cv.atof e, cv.atof m, cv.atof as, cv.atof t, cv.atof e0]

/-- The loop over the lines. -/
def kckLines (cv : Conv K) : List (List Char) → List (List K) → Res (List (List K))
  | [], tab => .ok tab
  | l :: ls, tab =>
    if l.head? = some '#' then kckLines cv ls tab
    else (kckLine cv l tab).bind fun tab' => kckLines cv ls tab'

/-- `readkcksystdat`: the table is static, hence zero at first. -/
def readKck (cv : Conv K) (size : Nat) (cwd dir : Option (List Char)) : Res (List (List K)) :=
  if (openData cwd dir).fail then .exit
  else kckLines cv (lines (openData cwd dir).rest) (List.replicate size (List.replicate 6 0))

/-! ## Temperature ratios (FissionFragments.cpp:1953-2000) -/

/-- One entry of `RTAdata`: the constructor fills the ratios with one and leaves the nucleus alone
(FissionFragments.h:102-108). -/
structure Rta (K : Type) where
  zaid : Option Int
  ratios : List K
  deriving DecidableEq, Repr

/-- The ratios of one line (1984-1989): separated by single blanks, `cnt` masses from `i` on. -/
def rtaCells (cv : Conv K) : Nat → Int → List Char → List K → Res (List K)
  | 0, _, _, r => .ok r
  | n + 1, i, str, r =>
    (writeAt r i (cv.atof (str.takeWhile (· ≠ ' ')))).bind fun r' =>
      match str.dropWhile (· ≠ ' ') with
      | [] => .ok r'
      | _ :: str' => rtaCells cv n (i + 1) str' r'

/-- `while (str!="")` on one line (1977-1992): nucleus, first and last mass, then the ratios, after which `str` is
empty; with the last mass below the first one no ratio is read and the rest of the line is taken for another row. -/
def rtaLine (cv : Conv K) (str : List Char) (c : Nat) (tab : List (Rta K)) : Res (List (Rta K) × Nat) :=
  match str with
  | [] => .ok (tab, c)
  | x :: xs =>
    if x = '\r' ∨ x = '\n' then .ok (tab, c)
    else if (x :: xs).length < 18 then
      -- `substr(18)` (or an earlier one) throws, after `ZAID` was written
      if c < tab.length then .exit else .ub
    else
      match readAt tab c with
      | .ok row =>
        let z := |cv.atoi ((x :: xs).take 7)|
        let lo := cv.atoi (((x :: xs).drop 7).take 12)
        let hi := cv.atoi (((x :: xs).drop 12).take 17)
        if hi < lo then rtaLine cv ((x :: xs).drop 18) (c + 1) (tab.set c ⟨some z, row.ratios⟩)
        else (rtaCells cv (hi - lo + 1).toNat lo ((x :: xs).drop 18) row.ratios).bind fun r =>
          .ok (tab.set c ⟨some z, r⟩, c + 1)
      | .exit => .exit
      | .ub => .ub
termination_by str.length
decreasing_by simp only [List.length_drop, List.length_cons]; omega

/-- The loop over the lines (1975-1993). -/
def rtaLines (cv : Conv K) : List (List Char) → Nat → List (Rta K) → Res (List (Rta K))
  | [], _, tab => .ok tab
  | l :: ls, c, tab =>
    if l.head? = some '#' then rtaLines cv ls c tab
    else (rtaLine cv l c tab).bind fun r => rtaLines cv ls r.2 r.1

/-- `readRTA`: ten entries (1955). -/
def readRta (cv : Conv K) (numA : Nat) (cwd dir : Option (List Char)) : Res (List (Rta K)) :=
  if (openData cwd dir).fail then .exit
  else rtaLines cv (lines (openData cwd dir).rest) 0 (List.replicate 10 ⟨none, List.replicate numA 1⟩)

/-- The temperature ratio of a pair with heavy mass `ah` (1691-1699): entries from the first on; one that was never
read has no defined nucleus. -/
def ratio (tab : List (Rta K)) (target ah : Int) : Res K :=
  match tab with
  | [] => .ok 1
  | ⟨none, _⟩ :: _ => .ub
  | ⟨some z, r⟩ :: tab => if z = target then readAt r ah else ratio tab target ah

end CGMF.LevelText

import Mathlib.Algebra.Order.Field.Basic
import Verif.Model.Rnd
import Verif.Model.Text

/-!
# Readers of the data files

Model of `readMasses`, `getMassExcess`, `readDeformations`, `getDeformation`, `readTemperatures`, `readLDP`,
`readSpinScaling`, `readPreEqAngularDistributionParameters`, `readPreeqData` and of the start of
`readAnisotropy` (FissionFragments.cpp).  A file is a list of characters; `ifstream` keeps the unread characters
and the `eof` and `fail` bits.  `getline` and `operator>>` follow the C++ standard: an operation on a stream that is
not good sets `fail` and leaves its variable alone.  `atoi`, `atof` and the conversion of one whitespace-separated word
are parameters; a number is assumed to occupy a whole word.  An exception that nothing catches
(`substr` beyond the end) ends the process: `exit`.
-/

namespace CGMF.Data

open CGMF.Text (isWs)

variable {K : Type} [Field K] [LinearOrder K]

/-! ## Streams -/

/-- State of an `ifstream`. -/
structure In where
  rest : List Char
  eof : Bool
  fail : Bool
  deriving DecidableEq, Repr

/-- `fp.open`: a missing file sets `fail`. -/
def openFile : Option (List Char) → In
  | none => ⟨[], false, true⟩
  | some t => ⟨t, false, false⟩

/-- The two attempts made by every reader (for instance 4841-4848): the file of that name in the current
directory (`cwd`), else the one in the data directory. -/
def openData (cwd dir : Option (List Char)) : In :=
  if (openFile cwd).fail then openFile dir else openFile cwd

/-- `getline(fp, str)`: the new value of `str` and the stream; the call is true when `fail` is unset afterwards. -/
def getline (s : In) (str : List Char) : List Char × In :=
  if s.eof || s.fail then (str, ⟨s.rest, s.eof, true⟩)
  else
    let l := s.rest.takeWhile (· ≠ '\n')
    match s.rest.dropWhile (· ≠ '\n') with
    | [] => (l, ⟨[], true, l.isEmpty⟩)
    | _ :: r => (l, ⟨r, false, false⟩)

/-- `fp >> x` for a number: `none` leaves `x` alone. A word that is no number stores zero and sets `fail`. -/
def extract {α : Type} (zero : α) (num : List Char → Option α) (s : In) : Option α × In :=
  if s.eof || s.fail then (none, ⟨s.rest, s.eof, true⟩)
  else
    match s.rest.dropWhile isWs with
    | [] => (none, ⟨[], true, true⟩)
    | c :: t =>
      let w := (c :: t).takeWhile (!isWs ·)
      let r := (c :: t).dropWhile (!isWs ·)
      match num w with
      | some v => (some v, ⟨r, r.isEmpty, false⟩)
      | none => (some zero, ⟨r, r.isEmpty, true⟩)

/-- See `lines`. -/
def linesAux : List Char → List Char → List (List Char)
  | [], cur => if cur = [] then [] else [cur]
  | c :: cs, cur => if c = '\n' then cur :: linesAux cs [] else linesAux cs (cur ++ [c])

/-- The lines that `while (getline(fp,str))` sees in a file opened successfully (`getline_lines`). -/
def lines (t : List Char) : List (List Char) := linesAux t []

/-- Sequencing of outcomes. -/
def thenDo {α β : Type} (x : Out α) (f : α → Out β) : Out β :=
  match x with
  | .ok a => f a
  | .exit => .exit
  | .ub => .ub
  | .more => .more

/-! ## Masses (4832-4880) -/

/-- The inner loop of `readMasses` (4856-4862) on one line: cells of 18 characters, the nucleus in the first seven.
`substr(7,18)` runs over into the next cell. -/
def massLine (atoi : List Char → Int) (atof : List Char → K) (str : List Char) (tab : List K) : Res (List K) :=
  match str with
  | [] => .ok tab
  | c :: cs =>
    if c = '\r' ∨ c = '\n' then .ok tab
    else if (c :: cs).length < 7 then .exit
    else
      match writeAt tab (atoi ((c :: cs).take 7)) (atof (((c :: cs).drop 7).take 18)) with
      | .ok tab' => if (c :: cs).length < 18 then .exit else massLine atoi atof ((c :: cs).drop 18) tab'
      | .exit => .exit
      | .ub => .ub
termination_by str.length
decreasing_by simp only [List.length_drop, List.length_cons]; omega

/-- The loop over the lines (4854-4864). -/
def massLines (atoi : List Char → Int) (atof : List Char → K) : List (List Char) → List K → Res (List K)
  | [], tab => .ok tab
  | l :: ls, tab =>
    if l.head? = some '#' then massLines atoi atof ls tab
    else
      match massLine atoi atof l tab with
      | .ok tab' => massLines atoi atof ls tab'
      | .exit => .exit
      | .ub => .ub

/-- `readMasses`: `size` is `MAX_ZAID`. -/
def readMasses (atoi : List Char → Int) (atof : List Char → K) (size : Nat) (cwd dir : Option (List Char)) :
    Res (List K) :=
  let s := openData cwd dir
  if s.fail then .exit else massLines atoi atof (lines s.rest) (List.replicate size 0)

/-- `getMassExcess` (4873-4880): an entry that is zero counts as missing. -/
def getMassExcess (tab : List K) (zaid : Int) : Res K :=
  match readAt tab zaid with
  | .ok m => if m = 0 then .exit else .ok m
  | .exit => .exit
  | .ub => .ub

/-! ## Deformations (4377-4421) -/

/-- The loop over the lines (4396-4402): `(Z, A)` columns, the deformation after column 44; charges above 99 end
the loop, masses above 199 are skipped. -/
def defLines (atoi : List Char → Int) (atof : List Char → K) : List (List Char) → List K → Res (List K)
  | [], tab => .ok tab
  | l :: ls, tab =>
    if l.head? = some '#' then defLines atoi atof ls tab
    else if 99 < atoi (l.take 4) then .ok tab
    else if l.length < 4 then .exit
    else if 199 < atoi ((l.drop 4).take 8) then defLines atoi atof ls tab
    else if l.length < 44 then .exit
    else
      match (l.drop 44)[6]? with
      | none => if (l.drop 44).length = 6 then
            -- `str[size()]` is the terminating zero, not a blank
            match writeAt tab (1000 * atoi (l.take 4) + atoi ((l.drop 4).take 8)) (atof (l.drop 44)) with
            | .ok tab' => defLines atoi atof ls tab'
            | .exit => .exit
            | .ub => .ub
          else .ub
      | some c =>
        if c = ' ' then defLines atoi atof ls tab
        else
          match writeAt tab (1000 * atoi (l.take 4) + atoi ((l.drop 4).take 8)) (atof (l.drop 44)) with
          | .ok tab' => defLines atoi atof ls tab'
          | .exit => .exit
          | .ub => .ub

/-- `readDeformations`: `none` is -100 (`unset`). -/
def readDeformations (atoi : List Char → Int) (atof : List Char → K) (unset : K) (size : Nat)
    (cwd dir : Option (List Char)) : Res (List K) :=
  let s := openData cwd dir
  if s.fail then .exit else defLines atoi atof (lines s.rest) (List.replicate size unset)

/-- `getDeformation` (4413-4421): an unset entry is replaced by 0.2 (`dflt`). -/
def getDeformation (unset dflt : K) (tab : List K) (zaid : Int) : Res K :=
  match readAt tab zaid with
  | .ok b => if b = unset then .ok dflt else .ok b
  | .exit => .exit
  | .ub => .ub

/-! ## Temperatures and level density parameters (4429-4600) -/

/-- `for (i..) fp >> row[i]` (4471, 4569), entries `i, i+1, ...` (`m` of them). -/
def readCells (num : List Char → Option K) : Nat → Nat → List K → In → List K × In
  | 0, _, row, s => (row, s)
  | m + 1, i, row, s =>
    match extract 0 num s with
    | (none, s') => readCells num m (i + 1) row s'
    | (some v, s') => readCells num m (i + 1) (row.set i v) s'

/-- `while (!fp.eof()) { fp >> zaid; for (i..) fp >> tab[zaid][i]; }` (4469-4472, 4567-4570). `zaid` is an
uninitialised local variable before the first successful read. -/
def readRows (inum : List Char → Option Int) (num : List Char → Option K) (n : Nat) :
    Nat → Option Int → List (List K) → In → Out (Option Int × List (List K) × In)
  | 0, _, _, _ => .more
  | fuel + 1, z, tab, s =>
    if s.eof then .ok (z, tab, s)
    else
      match extract 0 inum s with
      | (r, s1) =>
        match r.or z with
        | none => .ub
        | some za =>
          match readAt tab za with
          | .ok row =>
            readRows inum num n fuel (some za) (tab.set za.toNat (readCells num n 0 row s1).1) (readCells num n 0 row s1).2
          | .exit => .exit
          | .ub => .ub

/-- The outer loop of `readLDP` (4565-4571): the line that ends the comments has been taken from the stream by
`getline` and is not looked at again. -/
def ldpLoop (inum : List Char → Option Int) (num : List Char → Option K) (n : Nat) :
    Nat → Option Int → List (List K) → In → List Char → Out (List (List K))
  | 0, _, _, _, _ => .more
  | fuel + 1, z, tab, s, str =>
    match getline s str with
    | (str', s1) =>
      if s1.fail then .ok tab
      else if str'.head? = some '#' then ldpLoop inum num n fuel z tab s1 str'
      else
        thenDo (readRows inum num n fuel z tab s1) fun r => ldpLoop inum num n fuel r.1 r.2.1 r.2.2 str'

/-- `readLDP` (4542-4574): `size` is `MAX_ZAID`, `n` is `NUM_GRID`. -/
def readLDP (inum : List Char → Option Int) (num : List Char → Option K) (size n fuel : Nat)
    (cwd dir : Option (List Char)) : Out (List (List K)) :=
  let s := openData cwd dir
  if s.fail then .exit else ldpLoop inum num n fuel none (List.replicate size (List.replicate n 0)) s []

/-- Lines 4453-4456: the number of comment lines at the start of the file. -/
def countComments : Nat → In → List Char → Out Nat
  | 0, _, _ => .more
  | fuel + 1, s, str =>
    match getline s str with
    | (str', s1) =>
      if s1.fail then .ok 0
      else if str'.head? = some '#' then thenDo (countComments fuel s1 str') fun k => .ok (k + 1)
      else .ok 0

/-- Line 4461: `for (i<nc) getline(fp,str)`. -/
def skipLines : Nat → In → List Char → List Char × In
  | 0, s, str => (str, s)
  | n + 1, s, str => skipLines n (getline s str).2 (getline s str).1

/-- The loop at 4467-4473. -/
def tempLoop (inum : List Char → Option Int) (num : List Char → Option K) (n : Nat) :
    Nat → Option Int → List (List K) → In → List Char → Out (List (List K))
  | 0, _, _, _, _ => .more
  | fuel + 1, z, tab, s, str =>
    match getline s str with
    | (str', s1) =>
      if s1.fail then .ok tab
      else thenDo (readRows inum num n fuel z tab s1) fun r => tempLoop inum num n fuel r.1 r.2.1 r.2.2 str'

/-- `readTemperatures` (4429-4476): energy grid and table. `clear` and `seekg` go back to the start of the file. -/
def readTemperatures (inum : List Char → Option Int) (num : List Char → Option K) (size n fuel : Nat)
    (cwd dir : Option (List Char)) : Out (List K × List (List K)) :=
  let s := openData cwd dir
  if s.fail then .exit
  else
    thenDo (countComments fuel s []) fun nc =>
      match skipLines nc s [] with
      | (str, s1) =>
        match readCells num n 0 (List.replicate n 0) s1 with
        | (grid, s2) =>
          match getline s2 str with
          | (str', s3) =>
            thenDo (tempLoop inum num n fuel none (List.replicate size (List.replicate n 0)) s3 str') fun tab =>
              .ok (grid, tab)

/-! ## Spin scaling (4509-4534) -/

/-- The loop over the lines (4526-4531): the table is written before its size is checked. `row` converts one line to
the three numbers of a row. -/
def spinLines (row : List Char → K × K × K) (size : Nat) : List (List Char) → Nat → List (K × K × K) →
    Res (List (K × K × K))
  | [], _, tab => .ok tab
  | l :: ls, n, tab =>
    if l.head? = some '#' ∨ l = [] then spinLines row size ls n tab
    else
      match writeAt tab n (row l) with
      | .ok tab' => if size < n + 1 then .exit else spinLines row size ls (n + 1) tab'
      | .exit => .exit
      | .ub => .ub

/-- `readSpinScaling`: `size` is `ALPHA_MAX_ZAIDc`. -/
def readSpinScaling (row : List Char → K × K × K) (size : Nat) (cwd dir : Option (List Char)) :
    Res (List (K × K × K)) :=
  let s := openData cwd dir
  if s.fail then .exit else spinLines row size (lines s.rest) 0 (List.replicate size (0, 0, 0))

/-- `getSpinScalingCoefficients` (5478-5498): the first row of the nucleus (`trunc` is the conversion to `int`), else
the values given. -/
def spinCoef (trunc : K → Int) (tab : List (K × K × K)) (zaid : Int) (sf : Bool) (dflt : K × K) : K × K :=
  match tab.find? fun r => decide ((if sf then -zaid else zaid) = trunc r.1) with
  | some r => r.2
  | none => dflt

/-- `setSpinStrength(ZAID_0, einc)` (5506-5532): `alpha0` is the value given by the user, `def0`, `defs` the defaults
for neutron-induced fission (1.5 and 0.071), `defsf` the one for spontaneous fission (1.3). -/
def spinStrength (trunc : K → Int) (tab : List (K × K × K)) (def0 defs defsf alpha0 : K) (zaid : Int) (sf : Bool)
    (einc : K) : K :=
  if 0 < alpha0 then alpha0
  else
    let c := spinCoef trunc tab zaid sf (if sf then (defsf, 0) else (def0, defs))
    if einc < 0 then c.1 else c.1 + c.2 * einc

/-! ## Pre-equilibrium data (4714-4738, 5592-5624, 2079-2152) -/

/-- `while (!fp.eof())` of `readPreEqAngularDistributionParameters` (4730-4736): `(j, i)` is the next row of the
table of two times four rows; `row` converts a line. -/
def scatterLoop (row : List Char → List K) : Nat → Nat → Nat → List (List K) → In → List Char → Out (List (List K))
  | 0, _, _, _, _, _ => .more
  | fuel + 1, j, i, tab, s, str =>
    if s.eof then .ok tab
    else
      match getline s str with
      | (str', s1) =>
        if str'.head? = some '#' ∨ str' = [] ∨ str'.head? = some '\r' ∨ str'.head? = some '\n' then
          scatterLoop row fuel j i tab s1 str'
        else if i = 3 then scatterLoop row fuel 1 0 (tab.set (4 * j + i) (row str')) s1 str'
        else scatterLoop row fuel j (i + 1) (tab.set (4 * j + i) (row str')) s1 str'

/-- `readPreEqAngularDistributionParameters`: there is no test whether the file was opened. -/
def readScatter (row : List Char → List K) (fuel : Nat) (cwd dir : Option (List Char)) : Out (List (List K)) :=
  scatterLoop row fuel 0 0 (List.replicate 8 (List.replicate 6 0)) (openData cwd dir) []

/-- Lines 5610-5617: the number of reactions is the value of the first character of the first line that is not a
comment; the loop has no other way out. -/
def preeqCount (atoi : List Char → Int) : Nat → In → List Char → Out (Int × In)
  | 0, _, _ => .more
  | fuel + 1, s, str =>
    match getline s str with
    | (str', s1) =>
      if str'.take 1 = ['#'] then preeqCount atoi fuel s1 str' else .ok (atoi (str'.take 1), s1)

/-- One row of `preeq_id` and `preeq_params` (5619-5620): five numbers; `none` keeps what was there. -/
def preeqRow (inum : List Char → Option Int) (num : List Char → Option K) (s : In) (old : Int × List K) :
    (Int × List K) × In :=
  match extract 0 inum s with
  | (z, s1) => (((z.getD old.1), (readCells num 4 0 old.2 s1).1), (readCells num 4 0 old.2 s1).2)

/-- The loop 5619-5620. -/
def preeqRows (inum : List Char → Option Int) (num : List Char → Option K) :
    Nat → Nat → List (Int × List K) → In → Res (List (Int × List K))
  | 0, _, tab, _ => .ok tab
  | m + 1, i, tab, s =>
    match readAt tab i with
    | .ok old => preeqRows inum num m (i + 1) (tab.set i (preeqRow inum num s old).1) (preeqRow inum num s old).2
    | .exit => .exit
    | .ub => .ub

/-- `readPreeqData` (5592-5624): `size` is `MAX_TARGETS`; returns `n_reactions` and the table. -/
def readPreeq (atoi : List Char → Int) (inum : List Char → Option Int) (num : List Char → Option K) (size fuel : Nat)
    (cwd dir : Option (List Char)) : Out (Int × List (Int × List K)) :=
  let s := openData cwd dir
  if s.fail then .exit
  else
    thenDo (preeqCount atoi fuel s []) fun r =>
      match preeqRows inum num r.1.toNat 0 (List.replicate size (0, [0, 0, 0, 0])) r.2 with
      | .ok tab => .ok (r.1, tab)
      | .exit => .exit
      | .ub => .ub

/-- `preeq_fraction` (2079-2152) before the clamp at 2257: the first row of the target among the `n` rows, zero
without one. -/
def preeqFraction (exp : K → K) (n : Int) (tab : List (Int × List K)) (zaidt : Int) (e : K) : Res K :=
  match (tab.take n.toNat).find? fun r => decide (zaidt = r.1) with
  | none => if n.toNat ≤ tab.length then .ok 0 else .ub
  | some (_, [a0, e0, s, f0]) => .ok (1 / (1 + exp ((a0 - e) / e0)) + s * e + f0)
  | some _ => .ub

/-! ## Anisotropy (4662-4706) -/

/-- `readAnisotropy` on a file that cannot be opened: the first `getline` fails, `line` stays empty and
`Emin`, `Emax`, `Estep` are read from it without success, so line 4686 uses uninitialised variables. On a file that
can be opened the rest of the function is `body`. -/
def readAnisotropy {α : Type} (body : In → Out α) (cwd dir : Option (List Char)) : Out α :=
  let s := openData cwd dir
  if s.fail then .ub else body s

end CGMF.Data

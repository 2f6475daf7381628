import Verif.Model.Data

/-!
# Parameters of the mass yields and of the total kinetic energy

Model of the constructor of `Yields` (Yields.cpp:53-64): `setYieldParameters` (124-180), `LoadYAParams` (74-115),
`setTKEParameters` (265-309), `LoadTKEParams` (187-256), and of the choice of the kinetic energy parameters in
`setFissioningSystem` (384-434).  A file is a list of characters.  The conversion of a word to a number is a parameter,
and a number is assumed to occupy a whole word, as in `Model/Data.lean`.  A member that no statement has written is
`none`.
-/

namespace CGMF.YFile

open CGMF.Data CGMF.Text

variable {K : Type} [Field K] [LinearOrder K]

/-- `stream.getline(c, n)` for an array `c` (142, 165, 281, 305): at most `n-1` characters; a longer line sets `fail`;
on a stream that is not good `c` becomes empty. -/
def getlineC (n : Nat) (s : In) : List Char × In :=
  if s.eof || s.fail then ([], ⟨s.rest, s.eof, true⟩)
  else
    let l := s.rest.takeWhile (· ≠ '\n')
    if n ≤ l.length then (l.take (n - 1), ⟨s.rest.drop (n - 1), false, true⟩)
    else
      match s.rest.dropWhile (· ≠ '\n') with
      | [] => (l, ⟨[], true, l.isEmpty⟩)
      | _ :: r => (l, ⟨r, false, false⟩)

/-- `m` extractions from the words of a line (82-99, 193-232): `none` leaves the variable alone; a word that is no
number stores zero and ends the extractions. -/
def takeNums (num : List Char → Option K) : Nat → List (List Char) → List (Option K)
  | 0, _ => []
  | m + 1, [] => List.replicate (m + 1) none
  | m + 1, w :: ws =>
    match num w with
    | some v => some v :: takeNums num m ws
    | none => some 0 :: List.replicate m none

/-- `LoadYAParams` (74-115) and `LoadTKEParams` (187-256): the nucleus, then the values in the order of the file. -/
def loadRow (inum : List Char → Option Int) (num : List Char → Option K) (line : List Char) (old : List (Option K)) :
    List (Option K) :=
  match pySplit line with
  | [] => old
  | w :: ws =>
    match inum w with
    | none => old
    | some _ => List.zipWith (fun n o => n <|> o) (takeNums num old.length ws) old

/-- What the two readers fill: parameters for each chance, `NFsupp`, `!not_found`, and `this_id`. -/
structure St (K : Type) where
  rows : List (List (Option K))
  supp : List Bool
  found : Bool
  id : Option Int

/-- What differs between the two files: length of the buffer, number of values, the test on the number of words, and
how many of the values are used at once (`c` of the second slope, 207). -/
structure Kind where
  buf : Nat
  vals : Nat
  accept : Nat → Bool
  used : Nat

/-- The mass yields (139-149): buffer of 299, 14 values, the test is commented out. -/
def massKind : Kind := ⟨299, 14, fun _ => true, 0⟩

/-- The kinetic energies (278-288): buffer of 399, 26 values, lines of exactly 27 words. -/
def tkeKind : Kind := ⟨399, 26, fun n => n == 27, 4⟩

/-- Load chance `n`. -/
def load (k : Kind) (inum : List Char → Option Int) (num : List Char → Option K) (line : List Char) (n : Nat) (st : St K) :
    Res (St K) :=
  let row := loadRow inum num line (st.rows.getD n [])
  if (row.take k.used).all Option.isSome then
    .ok { st with rows := st.rows.set n row, supp := st.supp.set n true, found := st.found || n == 0 }
  else .ub

/-- One line that is no comment (146-164, 285-304); `true` is the `break`.  The four comparisons for induced fission
exclude each other and are written as one. -/
def lineStep (k : Kind) (inum : List Char → Option Int) (num : List Char → Option K) (cn : Int) (sf : Bool)
    (line : List Char) (st : St K) : Res (St K × Bool) :=
  let ws := pySplit line
  if k.accept ws.length then
    match (match ws with | [] => st.id | w :: _ => some ((inum w).getD 0)) with
    | none => .ub
    | some i =>
      let st := { st with id := some i }
      if sf then
        if -i = cn then (load k inum num line 0 st).bind fun st => .ok (st, true) else .ok (st, false)
      else if 0 ≤ cn - i ∧ cn - i < 4 then (load k inum num line (cn - i).toNat st).bind fun st => .ok (st, false)
      else .ok (st, false)
  else .ok (st, false)

/-- `while (!eof())` (143-166, 282-306) with the buffer `c`. -/
def loop (k : Kind) (inum : List Char → Option Int) (num : List Char → Option K) (cn : Int) (sf : Bool) :
    Nat → List Char → In → St K → Out (St K)
  | 0, _, _, _ => .more
  | f + 1, c, s, st =>
    if s.eof then .ok st
    else if c.head? = some '#' then loop k inum num cn sf f (getlineC k.buf s).1 (getlineC k.buf s).2 st
    else
      match lineStep k inum num cn sf c st with
      | .ok (st', true) => .ok st'
      | .ok (st', false) => loop k inum num cn sf f (getlineC k.buf s).1 (getlineC k.buf s).2 st'
      | .exit => .exit
      | .ub => .ub

/-- Members before reading (136-138, 275-277). -/
def start (k : Kind) : St K := ⟨List.replicate 4 (List.replicate k.vals none), List.replicate 4 false, false, none⟩

/-- Opening the file and reading it (128-142, 267-281). -/
def readParams (k : Kind) (inum : List Char → Option Int) (num : List Char → Option K) (cn : Int) (sf : Bool) (fuel : Nat)
    (file : Option (List Char)) : Out (St K) :=
  match file with
  | none => .exit
  | some t => loop k inum num cn sf fuel (getlineC k.buf ⟨t, false, false⟩).1 (getlineC k.buf ⟨t, false, false⟩).2 (start k)

/-- `setYieldParameters` (124-180). -/
def setYieldParameters (inum : List Char → Option Int) (num : List Char → Option K) (cn : Int) (sf : Bool) (fuel : Nat)
    (file : Option (List Char)) : Out (St K) :=
  thenDo (readParams massKind inum num cn sf fuel file) fun st => if st.found then .ok st else .exit

/-- `setTKEParameters` (265-309): `not_found` is not used. -/
def setTKEParameters (inum : List Char → Option Int) (num : List Char → Option K) (cn : Int) (sf : Bool) (fuel : Nat)
    (file : Option (List Char)) : Out (St K) :=
  readParams tkeKind inum num cn sf fuel file

/-! ## Use -/

/-- Reading a member. -/
def known (row : List (Option K)) (i : Int) : Res K :=
  (readAt row i).bind fun o => match o with | some v => .ok v | none => .ub

/-- `m` members from `i` on. -/
def knownFrom (row : List (Option K)) : Nat → Int → Res (List K)
  | 0, _ => .ok []
  | m + 1, i => (known row i).bind fun v => (knownFrom row m (i + 1)).bind fun vs => .ok (v :: vs)

/-- What `setFissioningSystem` keeps of the kinetic energy: `TKE_fit_param`, `TKEA_fit_param`, `sTKEA_fit_param`. -/
structure Tke (K : Type) where
  p0 : K
  p1 : K
  mean : List K
  width : List K

/-- `setFissioningSystem` 384-434 after `n` neutrons at the energy `e`; `viola` is `ViolaSyst(id)`.  A row is `a`, `E0`,
`b`, `d` (201-204), then twice eleven coefficients. -/
def tkeSelect (st : St K) (viola : K) (n : Int) (e : K) : Res (Tke K) :=
  (if n < 4 then readAt st.supp n else .ok false).bind fun own =>
  let idx := if own then n else 0
  (readAt st.rows idx).bind fun row =>
  (if own then (known row 0).bind fun a => (known row 1).bind fun e0 => (known row 2).bind fun b => (known row 3).bind fun d =>
      .ok (if e ≤ e0 then (a, b) else (a + (b - d) * e0, d))
    else .ok (viola, -(1 / 4))).bind fun p =>
  (knownFrom row 11 4).bind fun m => (knownFrom row 11 15).bind fun s => .ok ⟨p.1, p.2, m, s⟩

/-- `averageTKE` (637-647) at the energy given to `setFissioningSystem`. -/
def average (t : Tke K) (e : K) : K := t.p0 + t.p1 * e

/-- `ViolaSyst` (316-354): `x` is `Z²/A^(1/3)`. -/
def viola (z : Int) (x : K) : K :=
  let s : K × K :=
    if z = 92 then (-(243783800 / 10 ^ 11), 432954561 / 10 ^ 8)
    else if z = 93 then (-(247262338 / 10 ^ 11), 446218351 / 10 ^ 8)
    else if z = 94 then (-(178668219 / 10 ^ 11), 355865245 / 10 ^ 8)
    else if z = 98 then (-(344312133 / 10 ^ 11), 620846742 / 10 ^ 8)
    else (0, 1)
  (1189 / 10000 * x + 73 / 10) * (s.1 * x + s.2)

end CGMF.YFile

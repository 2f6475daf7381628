import Verif.Spec.LevelText

/-!
# What the level density parameter file and the temperature ratio file look like
-/

namespace CGMF.Spec

open CGMF.LevelText

variable {K : Type} [Field K] [LinearOrder K]

/-- One row of the parameter file: columns 0-4 charge, 5-10 mass, then pairing (11), shell correction (24), matching
energy (37), `a` (47), and temperature and shift from columns 57 and 67 with a positive matching energy, else from 77
and 87. -/
def KckShows (cv : Conv K) (l : List Char) (z : Int) (v : List K) : Prop :=
  '\n' ∉ l ∧ l.head? ≠ some '#' ∧ 87 ≤ l.length ∧ 1000 * cv.atoi (cols l 0 5) + cv.atoi (cols l 5 6) = z ∧
    ((0 < cv.atof (cols l 37 10) ∧ v = [cv.atof (cols l 11 13), cv.atof (cols l 24 13), cv.atof (cols l 37 10),
        cv.atof (cols l 47 10), cv.atof (cols l 57 10), cv.atof (cols l 67 10)]) ∨
     (cv.atof (cols l 37 10) ≤ 0 ∧ v = [cv.atof (cols l 11 13), cv.atof (cols l 24 13), cv.atof (cols l 37 10),
        cv.atof (cols l 47 10), cv.atof (cols l 77 10), cv.atof (cols l 87 10)]))

/-- A line of the parameter file. -/
inductive KckItem (K : Type) where
  | comment (l : List Char)
  | row (l : List Char) (z : Int) (v : List K)

/-- Its characters. -/
def KckItem.text : KckItem K → List Char
  | .comment l => l
  | .row l _ _ => l

/-- A well-formed line, for a nucleus below `size`. -/
def KckItem.Good (cv : Conv K) (size : Nat) : KckItem K → Prop
  | .comment l => '\n' ∉ l ∧ l.head? = some '#'
  | .row l z v => KckShows cv l z v ∧ 0 ≤ z ∧ z < size

/-- The rows. -/
def KckItem.rows : KckItem K → List (Int × List K)
  | .comment _ => []
  | .row _ z v => [(z, v)]

/-- The last row for a nucleus. -/
def lastOf (rows : List (Int × List K)) (z : Int) : Option (List K) :=
  ((rows.filter fun r => r.1 == z).getLast?).map Prod.snd

/-- A row of ratios: sign and nucleus, first mass, values. -/
structure RtaRow (K : Type) where
  line : List Char
  z : Int
  lo : Nat
  words : List (List Char)
  vals : List K

/-- The columns of a row: the nucleus in 0-6, the first mass from 7, the last one from 12, then the values from 18, each
ended by one blank or the end of the line. -/
def RtaRow.Good (cv : Conv K) (numA : Nat) (r : RtaRow K) : Prop :=
  '\n' ∉ r.line ∧ r.line.head? ≠ some '#' ∧ r.line.head? ≠ some '\r' ∧ 18 ≤ r.line.length ∧ cv.atoi (cols r.line 0 7) = r.z ∧
    cv.atoi (cols r.line 7 12) = r.lo ∧ cv.atoi (cols r.line 12 17) = (r.lo : Int) + r.vals.length - 1 ∧ r.vals ≠ [] ∧
    r.lo + r.vals.length ≤ numA ∧ r.words.map cv.atof = r.vals ∧ (∀ w ∈ r.words, ' ' ∉ w) ∧
    ∃ tail, r.line.drop 18 = (List.intersperse [' '] r.words).flatten ++ tail ∧ (tail = [] ∨ tail.head? = some ' ')

/-- A line of the ratio file. -/
inductive RtaItem (K : Type) where
  | comment (l : List Char)
  | blank (l : List Char)
  | row (r : RtaRow K)

/-- Its characters. -/
def RtaItem.text : RtaItem K → List Char
  | .comment l => l
  | .blank l => l
  | .row r => r.line

/-- A well-formed line. -/
def RtaItem.Good (cv : Conv K) (numA : Nat) : RtaItem K → Prop
  | .comment l => '\n' ∉ l ∧ l.head? = some '#'
  | .blank l => l = [] ∨ l = ['\r']
  | .row r => r.Good cv numA

/-- The rows. -/
def RtaItem.rows : RtaItem K → List (RtaRow K)
  | .comment _ => []
  | .blank _ => []
  | .row r => [r]

/-- The ratio the file gives for a target and a heavy mass: that of the first row whose nucleus is the target up to sign,
one outside its masses and for other targets. -/
def ratioOf (rows : List (RtaRow K)) (target : Int) (ah : Nat) : K :=
  match rows.find? fun r => |r.z| == target with
  | some r => if r.lo ≤ ah then r.vals.getD (ah - r.lo) 1 else 1
  | none => 1

end CGMF.Spec

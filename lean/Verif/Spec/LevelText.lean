import Verif.Model.LevelText

/-!
# What the level file and the two tables look like

Fields sit in fixed columns.  A nucleus is a line with its number and its number of levels, then each level as a line
followed by one line per gamma transition.  Comments come between nuclei.
-/

namespace CGMF.Spec

open CGMF.Ripl CGMF.LevelText

variable {K : Type}

/-- Columns `a` to `a+n-1` of a line. -/
def cols (l : List Char) (a n : Nat) : List Char := (l.drop a).take n

/-- Lines with their newlines. -/
def withNewlines (ls : List (List Char)) : List Char := ls.flatMap fun l => l ++ ['\n']

/-- A line shows a gamma transition. -/
def GamShows (cv : Conv K) (l : List Char) (g : Gam K) : Prop :=
  '\n' ∉ l ∧ 12 ≤ l.length ∧ cv.atoi (cols l 0 3) = g.nf ∧ cv.atof (cols l 3 9) = g.pe ∧ cv.atof (cols l 12 10) = g.ic

/-- A line shows a level that has `n` lines of transitions. -/
def LevelShows (cv : Conv K) (l : List Char) (r : Raw K) (n : Nat) : Prop :=
  '\n' ∉ l ∧ 31 ≤ l.length ∧ cv.atof (cols l 0 10) = r.energy ∧ cv.atof2 (cols l 10 5) = r.spin2 ∧
    cv.atoi (cols l 15 3) = r.parity ∧ cv.atof (cols l 18 13) = r.halflife ∧ cv.atoi (cols l 31 3) = n

/-- A line shows the number of a nucleus and of its levels. -/
def HeadShows (cv : Conv K) (l : List Char) (z : Int) (n : Nat) : Prop :=
  '\n' ∉ l ∧ l.head? ≠ some '#' ∧ 12 ≤ l.length ∧ cv.atoi (cols l 6 6) = z ∧ cv.atoi (cols l 12 5) = n

/-- A level with its lines. -/
structure LevelRec (K : Type) where
  line : List Char
  gams : List (List Char)
  raw : Raw K

/-- The characters of a level. -/
def LevelRec.text (r : LevelRec K) : List Char := withNewlines (r.line :: r.gams)

/-- The lines show the level. -/
def LevelRec.Good (cv : Conv K) (r : LevelRec K) : Prop :=
  LevelShows cv r.line r.raw r.raw.gammas.length ∧ List.Forall₂ (GamShows cv) r.gams r.raw.gammas

/-- What the file is made of. -/
inductive LevelItem (K : Type) where
  | comment (l : List Char)
  | nucleus (head : List Char) (z : Int) (levels : List (LevelRec K))

/-- The characters of an item. -/
def LevelItem.text : LevelItem K → List Char
  | .comment l => withNewlines [l]
  | .nucleus h _ ls => withNewlines [h] ++ ls.flatMap LevelRec.text

/-- The lines show the item. -/
def LevelItem.Good (cv : Conv K) : LevelItem K → Prop
  | .comment l => '\n' ∉ l ∧ l.head? = some '#'
  | .nucleus h z ls => HeadShows cv h z ls.length ∧ ∀ r ∈ ls, r.Good cv

/-- The records of an item. -/
def LevelItem.records : LevelItem K → List (Int × List (Raw K))
  | .comment _ => []
  | .nucleus _ z ls => [(z, ls.map LevelRec.raw)]

/-- The characters of the file. -/
def levelFile (f : List (LevelItem K)) : List Char := f.flatMap LevelItem.text

/-- The records of the file. -/
def levelRecords (f : List (LevelItem K)) : List (Int × List (Raw K)) := f.flatMap LevelItem.records

/-- The file that is read: the one in the current directory, else the one in the data directory. -/
def TextOf (cwd dir : Option (List Char)) (t : List Char) : Prop := cwd = some t ∨ (cwd = none ∧ dir = some t)

/-- An outcome without random numbers, as an outcome of a loop. -/
def ofRes {α : Type} : Res α → Out α
  | .ok a => .ok a
  | .exit => .exit
  | .ub => .ub

end CGMF.Spec

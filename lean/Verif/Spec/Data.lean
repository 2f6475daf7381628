import Verif.Model.Data

/-!
# What a well-formed data file looks like

A word is a non-empty run of characters that are not white space, a gap a non-empty run of white space.  A row of the
temperature and level density files is the nucleus followed by its values, each word followed by a gap.
-/

namespace CGMF.Spec

open CGMF.Text (isWs)

/-- A non-empty run of characters without white space. -/
def Word (w : List Char) : Prop := w ≠ [] ∧ ∀ c ∈ w, isWs c = false

/-- A non-empty run of white space. -/
def Gap (g : List Char) : Prop := g ≠ [] ∧ ∀ c ∈ g, isWs c = true

/-- A number in a file: its word, the white space after it and its value. -/
structure Cell (α : Type) where
  word : List Char
  gap : List Char
  val : α

/-- The characters of a number and its gap. -/
def Cell.text {α : Type} (c : Cell α) : List Char := c.word ++ c.gap

/-- The word is a number with that value. -/
def Cell.Good {α : Type} (num : List Char → Option α) (c : Cell α) : Prop :=
  Word c.word ∧ Gap c.gap ∧ num c.word = some c.val

/-- A row: a nucleus and its values. -/
structure DRow (K : Type) where
  head : Cell Int
  cells : List (Cell K)

/-- The characters of a row. -/
def DRow.text {K : Type} (r : DRow K) : List Char := r.head.text ++ r.cells.flatMap Cell.text

/-- The values of a row. -/
def DRow.vals {K : Type} (r : DRow K) : List K := r.cells.map Cell.val

/-- A row of `n` readable values for a nucleus below `size`. -/
def DRow.Good {K : Type} (inum : List Char → Option Int) (num : List Char → Option K) (size n : Nat) (r : DRow K) : Prop :=
  r.head.Good inum ∧ r.cells.length = n ∧ (∀ c ∈ r.cells, c.Good num) ∧ 0 ≤ r.head.val ∧ r.head.val < size

/-- A comment line, without its newline. -/
def Comment (l : List Char) : Prop := l.head? = some '#' ∧ '\n' ∉ l

/-- Comment lines with their newlines. -/
def commentText (ls : List (List Char)) : List Char := ls.flatMap fun l => l ++ ['\n']

/-- A cell of the mass table: seven characters for the nucleus, eleven for the mass. -/
structure MCell (K : Type) where
  zfield : List Char
  vfield : List Char
  zaid : Int
  mass : K

/-- A good cell: seven characters that start with a blank, eleven characters; the value is not affected by a following blank
or end of line. -/
def MCell.Good {K : Type} (atoi : List Char → Int) (atof : List Char → K) (size : Nat) (c : MCell K) : Prop :=
  c.zfield.length = 7 ∧ c.vfield.length = 11 ∧ c.zfield.head? = some ' ' ∧ atoi c.zfield = c.zaid ∧
    0 ≤ c.zaid ∧ c.zaid < size ∧
    ∀ x : List Char, (x = [] ∨ x.head? = some ' ' ∨ x.head? = some '\r') → atof (c.vfield ++ x) = c.mass

/-- The characters of a line of the mass table. -/
def mline {K : Type} (cs : List (MCell K)) (tail : List Char) : List Char := cs.flatMap (fun c => c.zfield ++ c.vfield) ++ tail

/-- The lines of a mass file: comments and lines of cells. -/
inductive MLine (K : Type) where
  | comment (l : List Char)
  | cells (cs : List (MCell K)) (tail : List Char)

/-- The characters of a line. -/
def MLine.text {K : Type} : MLine K → List Char
  | .comment l => l
  | .cells cs tail => mline cs tail

/-- The cells of a line. -/
def MLine.data {K : Type} : MLine K → List (MCell K)
  | .comment _ => []
  | .cells cs _ => cs

/-- A well-formed line. -/
def MLine.Good {K : Type} (atoi : List Char → Int) (atof : List Char → K) (size : Nat) : MLine K → Prop
  | .comment l => Comment l
  | .cells cs tail => (∀ c ∈ cs, MCell.Good atoi atof size c ∧ '\n' ∉ c.zfield ∧ '\n' ∉ c.vfield) ∧ (tail = [] ∨ tail = ['\r'])

/-- The file that a reader gets: the one in the current directory, else the one in the data directory. -/
def Given (cwd dir : Option (List Char)) (t : List Char) : Prop := cwd = some t ∨ (cwd = none ∧ dir = some t)

/-- The lines of a deformation file: comments, nuclei with a deformation, nuclei without. -/
inductive DLine (K : Type) where
  | comment (l : List Char)
  | entry (l : List Char) (z a : Int) (beta : K)
  | blank (l : List Char)

/-- The characters of a line. -/
def DLine.text {K : Type} : DLine K → List Char
  | .comment l => l
  | .entry l _ _ _ => l
  | .blank l => l

/-- The deformation that a line gives: nucleus and value. -/
def DLine.data {K : Type} : DLine K → List (MCell K)
  | .comment _ => []
  | .entry l z a b => [⟨l, l, 1000 * z + a, b⟩]
  | .blank _ => []

/-- A well-formed line: charge in columns 1-4, mass number from column 5 on, deformation from column 45 on with column 51
not blank; a line without deformation has a blank there or is for a mass number above 199. -/
def DLine.Good {K : Type} (atoi : List Char → Int) (atof : List Char → K) (size : Nat) : DLine K → Prop
  | .comment l => Comment l
  | .entry l z a b => l.head? ≠ some '#' ∧ '\n' ∉ l ∧ 50 < l.length ∧ l[50]? ≠ some ' ' ∧ atoi (l.take 4) = z ∧
      atoi ((l.drop 4).take 8) = a ∧ atof (l.drop 44) = b ∧ 0 ≤ z ∧ z ≤ 99 ∧ 0 ≤ a ∧ a ≤ 199 ∧ 1000 * z + a < size
  | .blank l => l.head? ≠ some '#' ∧ '\n' ∉ l ∧ 50 < l.length ∧ atoi (l.take 4) ≤ 99 ∧
      (l[50]? = some ' ' ∨ 199 < atoi ((l.drop 4).take 8))

end CGMF.Spec

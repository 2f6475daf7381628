import Verif.Model.Text

/-!
# What a file of yield parameters looks like

Comments start with `#`; a row is the number of the compound nucleus (negative for spontaneous fission) and its values;
any other line is ignored.  Every line ends with a newline.
-/

namespace CGMF.Spec

open CGMF.Text (pySplit)

/-- A line. -/
inductive YLine (K : Type) where
  | comment (l : List Char)
  | other (l : List Char)
  | row (l : List Char) (id : Int) (vals : List K)

/-- The characters of a line. -/
def YLine.text {K : Type} : YLine K → List Char
  | .comment l => l
  | .other l => l
  | .row l _ _ => l

/-- The row in a line. -/
def YLine.data {K : Type} : YLine K → List (Int × List K)
  | .comment _ => []
  | .other _ => []
  | .row _ id vals => [(id, vals)]

/-- The characters of the file. -/
def yText {K : Type} (ls : List (YLine K)) : List Char := ls.flatMap fun l => l.text ++ ['\n']

/-- The rows of the file. -/
def yRows {K : Type} (ls : List (YLine K)) : List (Int × List K) := ls.flatMap YLine.data

/-- The last row for a nucleus. -/
def lastRow {K : Type} (rows : List (Int × List K)) (id : Int) : Option (List K) :=
  ((rows.filter fun r => r.1 == id).getLast?).map Prod.snd

/-- The first row for a nucleus. -/
def firstRow {K : Type} (rows : List (Int × List K)) (id : Int) : Option (List K) :=
  ((rows.filter fun r => r.1 == id).head?).map Prod.snd

/-- A well-formed line: shorter than `buf`; a row has `m` numbers after the nucleus, and its number of words passes
`accept`; an ignored line is blank or does not pass. -/
def YLine.Good {K : Type} (inum : List Char → Option Int) (num : List Char → Option K) (buf m : Nat) (accept : Nat → Bool)
    (l : YLine K) : Prop :=
  '\n' ∉ l.text ∧ l.text.length < buf ∧
    match l with
    | .comment t => t.head? = some '#'
    | .other t => t.head? ≠ some '#' ∧ (pySplit t = [] ∨ accept (pySplit t).length = false)
    | .row t id vals => t.head? ≠ some '#' ∧ ∃ w ws, pySplit t = w :: ws ∧ inum w = some id ∧
        (ws.take m).map num = vals.map some ∧ vals.length = m ∧ accept (ws.length + 1) = true

/-- A blank line must not come before the first row. -/
def Opened {K : Type} (accept : Nat → Bool) (ls : List (YLine K)) : Prop :=
  accept 0 = true → ∀ a t b, ls = a ++ YLine.other t :: b → yRows a ≠ []

end CGMF.Spec

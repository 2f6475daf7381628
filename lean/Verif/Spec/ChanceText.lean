import Verif.Model.Text
import Verif.Spec.Data

/-!
# What a file of multi-chance fission probabilities looks like

Comments start with `#`; lines with fewer than three words are ignored; the block of a nucleus is a line with the
nucleus, the number of energies and the largest number of neutrons, a line of barriers and one line per energy, the energy
followed by the probabilities of no, one, two, ... neutrons.  Every line ends with a newline and has fewer than 399
characters.
-/

namespace CGMF.Spec

open CGMF.Text (pySplit isWs)

/-- A line of numbers: white space, then the numbers, the last one followed by the newline. -/
structure NLine (K : Type) where
  lead : List Char
  cells : List (Cell K)

/-- Its characters with the newline. -/
def NLine.text {K : Type} (l : NLine K) : List Char := l.lead ++ l.cells.flatMap Cell.text

/-- Its numbers. -/
def NLine.vals {K : Type} (l : NLine K) : List K := l.cells.map Cell.val

/-- A line of `m` numbers that fits the buffer. -/
def NLine.Good {K : Type} (num : List Char → Option K) (m : Nat) (l : NLine K) : Prop :=
  (∀ x ∈ l.lead, isWs x = true) ∧ (∀ c ∈ l.cells, c.Good num) ∧ l.cells.length = m ∧
    ∃ t, l.text = t ++ ['\n'] ∧ '\n' ∉ t ∧ t.length < 399

/-- The block of a nucleus. -/
structure CBlock (K : Type) where
  head : List Char
  id : Int
  nn : Nat
  barrier : NLine K
  rows : List (NLine K)

/-- Its characters. -/
def CBlock.text {K : Type} (b : CBlock K) : List Char := b.head ++ '\n' :: (b.barrier.text ++ b.rows.flatMap NLine.text)

/-- The tabulated energies. -/
def CBlock.energies {K : Type} (b : CBlock K) : List K := b.rows.filterMap fun r => r.vals.head?

/-- The tabulated probabilities, one list per energy. -/
def CBlock.probs {K : Type} (b : CBlock K) : List (List K) := b.rows.map fun r => r.vals.tail

/-- The first line: a number each for the nucleus, the rows that follow and the neutrons. -/
def HeadLine (inum : List Char → Option Int) (l : List Char) (id ne nn : Int) : Prop :=
  '\n' ∉ l ∧ l.length < 399 ∧ l.head? ≠ some '#' ∧ ∃ w0 w1 w2 ws, pySplit l = w0 :: w1 :: w2 :: ws ∧
    inum w0 = some id ∧ inum w1 = some ne ∧ inum w2 = some nn

/-- A well-formed block. -/
def CBlock.Good {K : Type} (inum : List Char → Option Int) (num : List Char → Option K) (b : CBlock K) : Prop :=
  HeadLine inum b.head b.id b.rows.length b.nn ∧ b.barrier.Good num (b.nn + 1) ∧ ∀ r ∈ b.rows, r.Good num (b.nn + 2)

/-- The parts of a file. -/
inductive CItem (K : Type) where
  | comment (l : List Char)
  | other (l : List Char)
  | block (b : CBlock K)

/-- Characters of a part. -/
def CItem.text {K : Type} : CItem K → List Char
  | .comment l => l ++ ['\n']
  | .other l => l ++ ['\n']
  | .block b => b.text

/-- A well-formed part. -/
def CItem.Good {K : Type} (inum : List Char → Option Int) (num : List Char → Option K) : CItem K → Prop
  | .comment l => '\n' ∉ l ∧ l.length < 399 ∧ l.head? = some '#'
  | .other l => '\n' ∉ l ∧ l.length < 399 ∧ l.head? ≠ some '#' ∧ (pySplit l).length < 3
  | .block b => b.Good inum num

/-- The characters of a file. -/
def cText {K : Type} (its : List (CItem K)) : List Char := its.flatMap CItem.text

/-- The blocks of a file. -/
def cBlocks {K : Type} (its : List (CItem K)) : List (CBlock K) :=
  its.filterMap fun i => match i with | .block b => some b | _ => none

/-- The first block of a nucleus. -/
def blockOf {K : Type} (its : List (CItem K)) (id : Int) : Option (CBlock K) := (cBlocks its).find? fun b => b.id == id

end CGMF.Spec

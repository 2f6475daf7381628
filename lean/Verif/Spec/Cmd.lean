import Verif.Model.Basics

/-!
# A command line as the user writes it

Independent of how it is scanned: options with their arguments in the same or the next word, flags that do not exist and
operands.
-/

namespace CGMF.Spec

/-- One thing on the command line. -/
inductive Arg where
  /-- an option and its argument: `-n 100` or `-n100` -/
  | opt (c : Char) (val : List Char) (joined : Bool)
  /-- a letter that is no option, such as `-h` -/
  | flag (c : Char)
  /-- a word that is no option -/
  | word (w : List Char)

/-- Its words. -/
def Arg.words : Arg → List (List Char)
  | .opt c v joined => if joined then ['-' :: c :: v] else [['-', c], v]
  | .flag c => [['-', c]]
  | .word w => [w]

/-- Well-formed: a joined argument is not empty, a flag is not a known letter, a word does not start with a dash. -/
def Arg.Good : Arg → Prop
  | .opt c v joined => c ∈ ['e', 'n', 'i', 'f', 't', 'd', 's'] ∧ (joined = true → v ≠ [])
  | .flag c => c ∉ ['e', 'n', 'i', 'f', 't', 'd', 's', '-']
  | .word w => w.head? ≠ some '-'

/-- The letter of an option. -/
def Arg.letter? : Arg → Option Char
  | .opt c _ _ => some c
  | _ => none

/-- The argument given for a letter, if this is an option with that letter. -/
def Arg.value? (c : Char) : Arg → Option (List Char)
  | .opt d v _ => if d = c then some v else none
  | _ => none

/-- The last argument given for a letter. -/
def lastArg (c : Char) : List Arg → Option (List Char)
  | [] => none
  | a :: as => (lastArg c as).or (a.value? c)

end CGMF.Spec

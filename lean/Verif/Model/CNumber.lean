import Verif.Model.Text
import Verif.Model.Cmd

/-!
# `atoi` and `atof`

The two functions of the C library (ISO C 7.22.1) with which cgmf.cpp reads its options (382-400) and the readers of
masses, deformations and levels their columns. Decimal numbers only: hexadecimal numbers, `inf` and `nan` are read as the
digits in front of them. `atof` gives the exact number; the nearest double is left out. A number outside the range of
`int` is undefined in C; here `atoi` gives its value, and the theorems speak of numbers in range.
-/

namespace CGMF.CNum

open CGMF.Text

/-- Blanks in front (`isspace`), skipped by both functions called at cgmf.cpp:382-400. -/
def skip (s : List Char) : List Char := s.dropWhile isWs

/-- The digits at the start (calls at cgmf.cpp:382-400); none count as zero. -/
def digits (s : List Char) : Nat := decVal (s.takeWhile isDigit)

/-- `atoi`: blanks, an optional sign, digits; what follows is ignored (cgmf.cpp:385, 388, 400). -/
def atoi (s : List Char) : Int :=
  match skip s with
  | '-' :: cs => -(digits cs : Int)
  | '+' :: cs => (digits cs : Int)
  | cs => (digits cs : Int)

/-- An exponent, if there is one with digits (part of `atof`, cgmf.cpp:382, 394). -/
def exponent : List Char → Int
  | 'e' :: '-' :: cs => -(digits cs : Int)
  | 'e' :: '+' :: cs => (digits cs : Int)
  | 'e' :: cs => (digits cs : Int)
  | 'E' :: '-' :: cs => -(digits cs : Int)
  | 'E' :: '+' :: cs => (digits cs : Int)
  | 'E' :: cs => (digits cs : Int)
  | _ => 0

/-- The digits, the optional fraction and the optional exponent of a number (part of `atof`, cgmf.cpp:382, 394). -/
def unsigned (s : List Char) : ℚ :=
  let ip := s.takeWhile isDigit
  let fr := fracSplit (s.dropWhile isDigit)
  if ip ++ fr.1 = [] then 0 else (decVal (ip ++ fr.1) : ℚ) * (10 : ℚ) ^ (exponent fr.2 - fr.1.length)

/-- `atof`: blanks, an optional sign, a number; what follows is ignored (cgmf.cpp:382, 394). -/
def atof (s : List Char) : ℚ :=
  match skip s with
  | '-' :: cs => -unsigned cs
  | '+' :: cs => unsigned cs
  | cs => unsigned cs

end CGMF.CNum

import Mathlib.Data.Nat.Digits.Defs
import Mathlib.Data.Int.Log
import Mathlib.Algebra.Order.Floor.Ring
import Mathlib.Data.Rat.Floor
import Mathlib.Algebra.Order.Field.Rat
import Verif.Model.Basics

/-!
# Text primitives: C `printf` conversions and Python string functions

A finite `double` is a rational number, so the formatted values are `ℚ`; NaN, infinities and the
sign of zero are not modelled.  The conversions `%i`, `%5i`, `%.<d>f` and `%g` and the Python
functions `readline`, `split`, `int` and `float` are modelled on characters.  `float` returns the exact
decimal value (its rounding to the nearest double is not modelled).
-/

namespace CGMF.Text

/-- Decimal digit. -/
def digitChar (n : Nat) : Char := Char.ofNat (48 + n)

/-- Is the character one of `0..9`? -/
def isDigit (c : Char) : Bool := 48 ≤ c.toNat && c.toNat ≤ 57

/-- Decimal representation of a natural number. -/
def natDec (n : Nat) : List Char :=
  if n = 0 then ['0'] else (Nat.digits 10 n).reverse.map digitChar

/-- Exactly `d` digits: the last `d` decimal digits of `m`, with leading zeros. -/
def fracDec : Nat → Nat → List Char
  | 0, _ => []
  | d + 1, m => fracDec d (m / 10) ++ [digitChar (m % 10)]

/-- `printf("%i")`. -/
def fmtInt (i : Int) : List Char :=
  if i < 0 then '-' :: natDec i.natAbs else natDec i.natAbs

/-- `printf("%5i")`: right-aligned in a field of width five. -/
def fmtInt5 (i : Int) : List Char :=
  List.replicate (5 - (fmtInt i).length) ' ' ++ fmtInt i

/-- Nearest integer, ties to even (the rounding direction of `printf` for exact values). -/
def roundHE (x : ℚ) : Int :=
  let f := ⌊x⌋
  let r := x - f
  if r < 1 / 2 then f
  else if r > 1 / 2 then f + 1
  else if f % 2 = 0 then f else f + 1

/-- `|x|` in units of the last printed digit. -/
def fixedUnits (d : Nat) (x : ℚ) : Nat := (roundHE (|x| * 10 ^ d)).toNat

/-- `printf("%.<d>f")` for `d > 0`. -/
def fmtFixed (d : Nat) (x : ℚ) : List Char :=
  let m := fixedUnits d x
  (if x < 0 then ['-'] else []) ++ natDec (m / 10 ^ d) ++ '.' :: fracDec d (m % 10 ^ d)

/-- Decimal exponent and six-digit significand used by `%g`: `|x| ≈ sig * 10^(exp-5)` with
`10^5 ≤ sig < 10^6`. -/
def gParts (x : ℚ) : Nat × Int :=
  let e := Int.log 10 |x|
  let m := (roundHE (|x| * (10 : ℚ) ^ (5 - e))).toNat
  if m = 1000000 then (100000, e + 1) else (m, e)

/-- Remove trailing zeros. -/
def stripZeros (cs : List Char) : List Char :=
  (cs.reverse.dropWhile (· == '0')).reverse

/-- Fraction with its point, nothing if the fraction is empty after stripping. -/
def pointFrac (frac : List Char) : List Char :=
  let f := stripZeros frac
  if f = [] then [] else '.' :: f

/-- `printf("%g")` (precision 6). -/
def fmtG (x : ℚ) : List Char :=
  if x = 0 then ['0'] else
  let sgn : List Char := if x < 0 then ['-'] else []
  let (m, e) := gParts x
  if e < -4 ∨ 6 ≤ e then
    -- scientific: one digit, fraction, exponent with sign and at least two digits
    let ex := natDec e.natAbs
    sgn ++ natDec (m / 100000) ++ pointFrac (fracDec 5 (m % 100000))
      ++ 'e' :: (if e < 0 then '-' else '+') :: (List.replicate (2 - ex.length) '0' ++ ex)
  else
    -- fixed with 5-e decimals (between 0 and 9)
    let k := (5 - e).toNat
    sgn ++ natDec (m / 10 ^ k) ++ pointFrac (fracDec k (m % 10 ^ k))

/-! ## Python side -/

/-- Whitespace for `str.split()` (ASCII). -/
def isWs (c : Char) : Bool :=
  c == ' ' || c == '\n' || c == '\t' || c == '\r' || c.toNat == 11 || c.toNat == 12

/-- `str.split()` with an accumulator for the current token. -/
def pySplitAux : List Char → List Char → List (List Char)
  | [], cur => if cur = [] then [] else [cur]
  | c :: cs, cur =>
    if isWs c then
      (if cur = [] then pySplitAux cs [] else cur :: pySplitAux cs [])
    else pySplitAux cs (cur ++ [c])

/-- `str.split()`. -/
def pySplit (s : List Char) : List (List Char) := pySplitAux s []

/-- Lines of a file, each with its terminating newline, as successive `readline()` calls return
them. -/
def linesAux : List Char → List Char → List (List Char)
  | [], cur => if cur = [] then [] else [cur]
  | c :: cs, cur =>
    if c = '\n' then (cur ++ ['\n']) :: linesAux cs [] else linesAux cs (cur ++ [c])

/-- See `linesAux`. -/
def fileLines (s : List Char) : List (List Char) := linesAux s []

/-- `f.readline()`: the empty string at end of file. -/
def readline : List (List Char) → List Char × List (List Char)
  | [] => ([], [])
  | l :: ls => (l, ls)

/-- Value of a digit string. -/
def decVal (cs : List Char) : Nat := cs.foldl (fun a c => 10 * a + (c.toNat - 48)) 0

/-- Unsigned digit string, non-empty. -/
def pyNat (cs : List Char) : Res Nat :=
  if cs = [] then .exit else if cs.all isDigit then .ok (decVal cs) else .exit

/-- `int(s)` for a token: optional sign, digits; anything else raises (`exit`). -/
def pyInt : List Char → Res Int
  | '-' :: cs => do let n ← pyNat cs; pure (-(n : Int))
  | '+' :: cs => do let n ← pyNat cs; pure (n : Int)
  | cs => do let n ← pyNat cs; pure (n : Int)

/-- Optional exponent part of a float literal. -/
def pyExp : List Char → Res Int
  | [] => .ok 0
  | 'e' :: cs => pyInt cs
  | 'E' :: cs => pyInt cs
  | _ => .exit

/-- Optional fraction after the integer part: fraction digits and the rest. -/
def fracSplit : List Char → List Char × List Char
  | '.' :: r => (r.takeWhile isDigit, r.dropWhile isDigit)
  | r => ([], r)

/-- Unsigned float literal: digits, optional fraction, optional exponent. -/
def pyUFloat (s : List Char) : Res ℚ :=
  let ip := s.takeWhile isDigit
  let fr := fracSplit (s.dropWhile isDigit)
  if ip ++ fr.1 = [] then .exit
  else do
    let e ← pyExp fr.2
    pure ((decVal (ip ++ fr.1) : ℚ) * (10 : ℚ) ^ (e - fr.1.length))

/-- `float(s)` for a token. -/
def pyFloat : List Char → Res ℚ
  | '-' :: cs => do let x ← pyUFloat cs; pure (-x)
  | '+' :: cs => pyUFloat cs
  | cs => pyUFloat cs

/-- `data[i]` on a list of tokens: `IndexError` is an exception (`exit`).  Negative indices do
not occur. -/
def tok (data : List (List Char)) (i : Nat) : Res (List Char) :=
  match data[i]? with
  | some t => .ok t
  | none => .exit

/-- `float(data[i])`. -/
def floatAt (data : List (List Char)) (i : Nat) : Res ℚ := do pyFloat (← tok data i)

/-- `int(data[i])`. -/
def intAt (data : List (List Char)) (i : Nat) : Res Int := do pyInt (← tok data i)

end CGMF.Text

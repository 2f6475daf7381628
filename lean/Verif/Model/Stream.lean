import Verif.Model.Data
import Verif.Model.CNumber

/-!
# Numbers taken from a stream character by character

`fp >> x` for an `int` and a `double` as the C++ library does it (ISO C++ `num_get`, 28.4.2.1.2): white space is skipped,
then characters are collected as long as they can belong to a number, and what has been collected is converted.  In contrast
to `Model/Data.lean` a number need not occupy a whole word: what does not belong to it stays in the stream.  Then the two
readers of FissionFragments.cpp that take whole tables this way, `readTemperatures` (4429-4476) and `readLDP` (4542-4574).
Decimal numbers only; a `double` gets the exact number, the nearest double and overflow are left out.
-/

namespace CGMF.Stream

open CGMF.Text CGMF.Data

/-- Put characters in front of the collected ones. -/
def front (p : List Char) (r : List Char × List Char) : List Char × List Char := (p ++ r.1, r.2)

/-- Characters collected for `fp >> zaid` (FissionFragments.cpp:4470, 4568): an optional sign, digits. -/
def takeInt : List Char → List Char × List Char
  | [] => ([], [])
  | c :: cs =>
    if c = '+' ∨ c = '-' then (c :: cs.takeWhile isDigit, cs.dropWhile isDigit)
    else ((c :: cs).takeWhile isDigit, (c :: cs).dropWhile isDigit)

/-- Characters collected for `fp >> tab[zaid][i]` (FissionFragments.cpp:4471, 4569) after the sign: digits, one point unless
there was one or an exponent, one exponent with an optional sign once there was a digit. -/
def takeBody (digit point expo : Bool) : List Char → List Char × List Char
  | [] => ([], [])
  | c :: cs =>
    if isDigit c then front [c] (takeBody true point expo cs)
    else if c = '.' ∧ point = false ∧ expo = false then front [c] (takeBody digit true expo cs)
    else if (c = 'e' ∨ c = 'E') ∧ expo = false ∧ digit = true then
      match cs with
      | [] => ([c], [])
      | d :: ds => if d = '+' ∨ d = '-' then front [c, d] (takeBody digit point true ds) else front [c] (takeBody digit point true (d :: ds))
    else ([], c :: cs)

/-- The same with the sign (FissionFragments.cpp:4471, 4569). -/
def takeNum : List Char → List Char × List Char
  | [] => ([], [])
  | c :: cs => if c = '+' ∨ c = '-' then front [c] (takeBody false false false cs) else takeBody false false false (c :: cs)

/-- `fp >> x` (FissionFragments.cpp:4462, 4470, 4471, 4568, 4569): `collect` the characters, `conv` what they are. The end of
the file is noticed when it is reached while collecting. A failed conversion stores `bad`. -/
def take {α : Type} (bad : List Char → α) (collect : List Char → List Char × List Char) (conv : List Char → Option α) (s : In) :
    Option α × In :=
  if s.eof || s.fail then (none, ⟨s.rest, s.eof, true⟩)
  else
    match s.rest.dropWhile isWs with
    | [] => (none, ⟨[], true, true⟩)
    | c :: t =>
      match conv (collect (c :: t)).1 with
      | some v => (some v, ⟨(collect (c :: t)).2, (collect (c :: t)).2.isEmpty, false⟩)
      | none => (some (bad (collect (c :: t)).1), ⟨(collect (c :: t)).2, (collect (c :: t)).2.isEmpty, true⟩)

/-- A whole number within `int` (4470, 4568); a number outside fails. -/
def convInt (w : List Char) : Option Int :=
  match pyInt w with
  | .ok i => if -2147483648 ≤ i ∧ i ≤ 2147483647 then some i else none
  | _ => none

/-- What a failed conversion stores (4470, 4568): the nearest `int` for a number outside the range, zero for no number. -/
def badInt (w : List Char) : Int :=
  match pyInt w with
  | .ok i => max (-2147483648) (min 2147483647 i)
  | _ => 0

/-- A decimal number (4471, 4569). -/
def convNum (w : List Char) : Option ℚ :=
  match pyFloat w with
  | .ok x => some x
  | _ => none

/-- `fp >> zaid` (FissionFragments.cpp:4470, 4568). -/
def getInt : In → Option Int × In := take badInt takeInt convInt

/-- `fp >> tab[zaid][i]` (FissionFragments.cpp:4471, 4569). -/
def getNum : In → Option ℚ × In := take (fun _ => 0) takeNum convNum

/-- `for (i..) fp >> row[i]` (FissionFragments.cpp:4462, 4471, 4569). -/
def cells : Nat → Nat → List ℚ → In → List ℚ × In
  | 0, _, row, s => (row, s)
  | m + 1, i, row, s =>
    match getNum s with
    | (none, s') => cells m (i + 1) row s'
    | (some v, s') => cells m (i + 1) (row.set i v) s'

/-- The row loop (FissionFragments.cpp:4469-4472, 4567-4570), as `Data.readRows`. -/
def rows (n : Nat) : Nat → Option Int → List (List ℚ) → In → Out (Option Int × List (List ℚ) × In)
  | 0, _, _, _ => .more
  | fuel + 1, z, tab, s =>
    if s.eof then .ok (z, tab, s)
    else
      match getInt s with
      | (r, s1) =>
        match r.or z with
        | none => .ub
        | some za =>
          match readAt tab za with
          | .ok row => rows n fuel (some za) (tab.set za.toNat (cells n 0 row s1).1) (cells n 0 row s1).2
          | .exit => .exit
          | .ub => .ub

/-- The outer loop of `readLDP` (FissionFragments.cpp:4565-4571), as `Data.ldpLoop`. -/
def ldpLoop (n : Nat) : Nat → Option Int → List (List ℚ) → In → List Char → Out (List (List ℚ))
  | 0, _, _, _, _ => .more
  | fuel + 1, z, tab, s, str =>
    match getline s str with
    | (str', s1) =>
      if s1.fail then .ok tab
      else if str'.head? = some '#' then ldpLoop n fuel z tab s1 str'
      else thenDo (rows n fuel z tab s1) fun r => ldpLoop n fuel r.1 r.2.1 r.2.2 str'

/-- `readLDP` (FissionFragments.cpp:4542-4574). -/
def readLDP (size n fuel : Nat) (cwd dir : Option (List Char)) : Out (List (List ℚ)) :=
  let s := openData cwd dir
  if s.fail then .exit else ldpLoop n fuel none (List.replicate size (List.replicate n 0)) s []

/-- The loop at FissionFragments.cpp:4467-4473, as `Data.tempLoop`. -/
def tempLoop (n : Nat) : Nat → Option Int → List (List ℚ) → In → List Char → Out (List (List ℚ))
  | 0, _, _, _, _ => .more
  | fuel + 1, z, tab, s, str =>
    match getline s str with
    | (str', s1) =>
      if s1.fail then .ok tab
      else thenDo (rows n fuel z tab s1) fun r => tempLoop n fuel r.1 r.2.1 r.2.2 str'

/-- `readTemperatures` (FissionFragments.cpp:4429-4476). -/
def readTemperatures (size n fuel : Nat) (cwd dir : Option (List Char)) : Out (List ℚ × List (List ℚ)) :=
  let s := openData cwd dir
  if s.fail then .exit
  else
    thenDo (countComments fuel s []) fun nc =>
      match skipLines nc s [] with
      | (str, s1) =>
        match cells n 0 (List.replicate n 0) s1 with
        | (grid, s2) =>
          match getline s2 str with
          | (str', s3) =>
            thenDo (tempLoop n fuel none (List.replicate size (List.replicate n 0)) s3 str') fun tab => .ok (grid, tab)

end CGMF.Stream

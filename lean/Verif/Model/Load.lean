import Verif.Model.Parser

/-!
# Quantities per event computed when a file is loaded

Model of the part of `Histories.__init__` after the reader (tools/CGMFtk/histories.py 55-143) that adds the columns of
the light and of the heavy fragments.  numpy adds two vectors of equal length entry by entry, repeats the only entry of a
vector of length one, and raises for all other lengths.  The same for `Yields.__init__` (tools/CGMFtk/yields.py 26-103).
-/

namespace CGMF.Parser

open CGMF.Text

/-- `a + b` for two numpy vectors. -/
def npAdd {α : Type} [Add α] (a b : List α) : Res (List α) :=
  if a.length = b.length then .ok (a.zipWith (· + ·) b)
  else
    match a, b with
    | [x], b => .ok (b.map (x + ·))
    | a, [y] => .ok (a.map (· + y))
    | _, _ => .exit

/-- Light plus heavy: `x[::2] + x[1::2]`. -/
def perEvent {α : Type} [Add α] (xs : List α) : Res (List α) := npAdd (evens xs) (odds xs)

/-- The loaded object: the fragments and the sums over the two fragments of an event. -/
structure PyHist where
  header : PyHeader
  frags : List PyFrag
  numberEvents : Nat
  nutot : List Int
  nugtot : List Int
  tkePre : List ℚ
  tkePost : List ℚ
  txe : List ℚ
  deriving DecidableEq, Repr

/-- histories.py 55-143: the reader, then `numberEvents` (58), `nutot` (80), `nugtot` (86), `TKEpre` (132), `TKEpost`
(134), `TXE` (137). -/
def openHistories (nevents : Option Nat) (text : List Char) : Res PyHist := do
  let r ← loadHistories nevents text
  let nu ← perEvent (r.2.map (·.nn))
  let nug ← perEvent (r.2.map (·.ng))
  let pre ← perEvent (r.2.map (·.ke))
  let post ← perEvent (r.2.map (·.kePost))
  let txe ← perEvent (r.2.map (·.xe))
  pure ⟨r.1, r.2, r.2.length / 2, nu, nug, pre, post, txe⟩

/-- yields.py 119.  `np.loadtxt` raises when the number of columns changes. -/
def rectangular (rows : List (List ℚ)) : Bool := allSame (rows.map List.length)

/-- yields.py 63-76.  `x[:,c]` of a two-dimensional array: an index error beyond the last column. -/
def column (c : Nat) (rows : List (List ℚ)) : Res (List ℚ) :=
  match rows with
  | [] => .ok []
  | r :: rs =>
    match r[c]? with
    | none => .exit
    | some x => do
      let xs ← column c rs
      pure (x :: xs)

/-- The loaded object of yields mode: rows, mass, charge, and the sums over the two fragments. -/
structure PyYields where
  rows : List (List ℚ)
  numberEvents : Nat
  a : List ℚ
  z : List ℚ
  tke : List ℚ
  txe : List ℚ
  deriving DecidableEq, Repr

/-- yields.py 26-83 with the reader (107-124): a file with less than two rows gives a one-dimensional array, for which
`self.yields[:,1]` (63) raises; columns 0 to 8 are needed (63-74); `TKE` (79), `TXE` (82).  The conversion of mass and
charge to integers (63-64) is left out: the numbers in the file are integers. -/
def openYields (nevents : Option Nat) (text : List Char) : Res PyYields := do
  let rows ← loadRows (fileLines text)
  if rectangular rows && decide (2 ≤ rows.length) then do
    let data := match nevents with
      | none => rows
      | some n => rows.take (2 * n)
    let a ← column 1 data
    let z ← column 0 data
    let u ← column 3 data
    let ke ← column 2 data
    let _ ← column 8 data
    let tke ← perEvent ke
    let txe ← perEvent u
    pure ⟨data, data.length / 2, a, z, tke, txe⟩
  else .exit

end CGMF.Parser

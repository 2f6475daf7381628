import Verif.Model.Text

/-!
# Reading history and yields files

Model of tools/CGMFtk/histories.py `_readHistoryFileFromCGMF` (156-380) and of
tools/CGMFtk/yields.py `_readYieldFileFromCGMF`, on characters.  A Python exception
(`IndexError`, `ValueError`) and `sys.exit` are both `exit`.  Messages that are only printed
(e.g. "Incorrect number of pre-fission neutrons") are not modelled.
-/

namespace CGMF.Parser

open CGMF.Text

/-- Direction and energy of a particle as stored by the reader. -/
structure Vec4 where
  u : ℚ
  v : ℚ
  w : ℚ
  e : ℚ
  deriving DecidableEq, Repr

/-- What the reader appends to its lists for one fragment. -/
structure PyFrag where
  a : Int
  z : Int
  xe : ℚ
  j : ℚ
  p : Int
  ke : ℚ
  kePost : ℚ
  nn : Int
  ng : Int
  npn : Int
  pre : ℚ × ℚ × ℚ
  post : ℚ × ℚ × ℚ
  cm : List Vec4
  lab : List Vec4
  phot : List Vec4
  ages : List ℚ
  pren : List Vec4
  deriving DecidableEq, Repr

/-- Header data. -/
structure PyHeader where
  zaid : Int
  einc : ℚ
  time : ℚ
  deriving DecidableEq, Repr

/-- `float(data[0+i*k]), ..., float(data[3+i*k])`. -/
def vecAt (data : List (List Char)) (k i : Nat) : Res Vec4 := do
  let u ← floatAt data (0 + i * k)
  let v ← floatAt data (1 + i * k)
  let w ← floatAt data (2 + i * k)
  let e ← floatAt data (3 + i * k)
  pure ⟨u, v, w, e⟩

/-- `for i in range(n): ...append(...)`, from `i`. -/
def collect {α : Type} (f : Nat → Res α) : Nat → Nat → Res (List α)
  | 0, _ => .ok []
  | n + 1, i => do
    let x ← f i
    let xs ← collect f n (i + 1)
    pure (x :: xs)

/-- histories.py:287-299 and 329-333: one line with `n` groups of four numbers; no line is read
when `n ≤ 0` (`range` of a non-positive number is empty). -/
def readVecs (n : Int) (ls : List (List Char)) : Res (List Vec4 × List (List Char)) :=
  if 0 < n then do
    let (line, ls) := readline ls
    let vs ← collect (vecAt (pySplit line) 4) n.toNat 0
    pure (vs, ls)
  else .ok ([], ls)

/-- histories.py:305-310: photons with emission time, groups of five. -/
def readPhotons5 (ng : Int) (ls : List (List Char)) :
    Res ((List Vec4 × List ℚ) × List (List Char)) := do
  let (line, ls) := readline ls
  let vs ← collect (vecAt (pySplit line) 5) ng.toNat 0
  let ts ← collect (fun i => floatAt (pySplit line) (4 + i * 5)) ng.toNat 0
  pure ((vs, ts), ls)

/-- histories.py:311-316: photons without emission time. -/
def readPhotons4 (ng : Int) (ls : List (List Char)) :
    Res ((List Vec4 × List ℚ) × List (List Char)) := do
  let (vs, ls) ← readVecs ng ls
  pure ((vs, List.replicate ng.toNat 0), ls)

/-- histories.py:301-316. -/
def readPhotons (time : ℚ) (ng : Int) (ls : List (List Char)) :
    Res ((List Vec4 × List ℚ) × List (List Char)) :=
  if 0 < ng ∧ time < 0 then readPhotons5 ng ls else readPhotons4 ng ls

/-- histories.py:318-336: pre-fission neutrons.  A light fragment with a non-zero number aborts;
a heavy fragment without any gets one dummy entry. -/
def readPre (isLight : Bool) (npn : Int) (ls : List (List Char)) :
    Res (List Vec4 × List (List Char)) :=
  if isLight then (if npn ≠ 0 then .exit else .ok ([], ls))
  else if 0 < npn then readVecs npn ls
  else .ok ([⟨0, 0, 0, 0⟩], ls)

/-- histories.py:239-361: body of the reading loop after a non-empty line was read. -/
def readFragment (time : ℚ) (isLight : Bool) (line : List Char) (ls : List (List Char)) :
    Res (PyFrag × List (List Char)) := do
  let data := pySplit line
  let a ← intAt data 0
  let z ← intAt data 1
  let xe ← floatAt data 2
  let j ← floatAt data 3
  let p ← intAt data 4
  let ke ← floatAt data 5
  let kePost ← floatAt data 6
  let nn ← intAt data 7
  let ng ← intAt data 8
  let npn ← intAt data 9
  let (mline, ls) := readline ls
  let m := pySplit mline
  let x0 ← floatAt m 0
  let x1 ← floatAt m 1
  let x2 ← floatAt m 2
  let x3 ← floatAt m 3
  let x4 ← floatAt m 4
  let x5 ← floatAt m 5
  let (cm, ls) ← readVecs nn ls
  let (lab, ls) ← readVecs nn ls
  let (ph, ls) ← readPhotons time ng ls
  let (pren, ls) ← readPre isLight npn ls
  pure ({ a, z, xe, j, p, ke, kePost, nn, ng, npn,
          pre := (x0, x1, x2), post := (x3, x4, x5),
          cm, lab, phot := ph.1, ages := ph.2, pren }, ls)

/-- The limit test of the loop (histories.py:233): `c > maxNumberEvents`, where `c` is the number of
the iteration about to start. -/
def limitReached (max : Option Nat) (c : Nat) : Bool :=
  match max with
  | none => false
  | some m => m < c

/-- histories.py:230-361: the `while True` loop.  `fuel` bounds the number of iterations; every
iteration that continues has consumed a line, so `length ls + 1` iterations always suffice
(running out is `ub`, which no theorem allows). -/
def readLoop (time : ℚ) (max : Option Nat) :
    Nat → Nat → Bool → List (List Char) → Res (List PyFrag)
  | 0, _, _, _ => .ub
  | fuel + 1, c, isLight, ls =>
    let c := c + 1
    if limitReached max c then .ok []
    else
      let (line, ls) := readline ls
      if line = [] then .ok []
      else do
        let (f, ls) ← readFragment time isLight line ls
        let fs ← readLoop time max fuel c (!isLight) ls
        pure (f :: fs)

/-- histories.py:220-223: third header field, the last token. -/
def headerTime (data : List (List Char)) : Res ℚ :=
  if data.length > 2 then floatAt data (data.length - 1) else .ok 0

/-- histories.py:208-223: the header line; `line.find("#") != 0` exits. -/
def readHeader (line : List Char) : Res PyHeader :=
  match line with
  | '#' :: rest => do
    let data := pySplit rest
    let zaid ← intAt data 0
    let einc ← floatAt data 1
    let time ← headerTime data
    pure ⟨zaid, einc, time⟩
  | _ => .exit

/-- histories.py:156-361: header and fragments of a file; `nevents` as given by the user. -/
def readHistory (nevents : Option Nat) (text : List Char) : Res (PyHeader × List PyFrag) := do
  let (line, ls) := readline (fileLines text)
  let h ← readHeader line
  let fs ← readLoop h.time (nevents.map (2 * ·)) (ls.length + 1) 0 true ls
  pure (h, fs)

/-- `x[::2]`. -/
def evens {α : Type} : List α → List α
  | [] => []
  | [a] => [a]
  | a :: _ :: l => a :: evens l

/-- `x[1::2]`. -/
def odds {α : Type} : List α → List α
  | [] => []
  | [_] => []
  | _ :: b :: l => b :: odds l

/-! ## Assembly into one array (histories.py:363-378) -/

/-- Are all entries equal? -/
def allSame : List Nat → Bool
  | [] => true
  | a :: l => l.all (· == a)

/-- Shape of `np.asarray(xs, dtype=object)` for a list of lists with the given lengths: numpy
makes a rectangular array when all lengths agree, otherwise a vector of lists.  `inner` is the shape
of one element (`[]` for numbers, `[3]` for direction vectors; dropped when there are none). -/
def objShape (lens : List Nat) (inner : List Nat) : List Nat :=
  match lens with
  | [] => [0]
  | k :: _ => if allSame lens then lens.length :: k :: (if k = 0 then [] else inner)
              else [lens.length]

/-- First two dimensions after `np.atleast_3d`, which `np.dstack` applies: `(n,)` becomes
`(1,n,1)`, `(m,n)` becomes `(m,n,1)`. -/
def dims2 : List Nat → Nat × Nat
  | [] => (1, 1)
  | [n] => (1, n)
  | m :: n :: _ => (m, n)

/-- Shapes of the list-valued columns stacked at histories.py:375. -/
def columnShapes (fs : List PyFrag) : List (List Nat) :=
  [objShape (fs.map (·.cm.length)) [], objShape (fs.map (·.lab.length)) [],
   objShape (fs.map (·.phot.length)) [], objShape (fs.map (·.phot.length)) [],
   objShape (fs.map (·.ages.length)) [],
   objShape (fs.map (·.cm.length)) [3], objShape (fs.map (·.lab.length)) [3],
   objShape (fs.map (·.pren.length)) [], objShape (fs.map (·.pren.length)) [3]]

/-- histories.py:375: `np.dstack` needs the first two dimensions of all columns to agree with those
of the scalar columns, `(1, n)`; otherwise `ValueError`. -/
def stackable (fs : List PyFrag) : Bool :=
  (columnShapes fs).all (fun s => dims2 s == (1, fs.length))

/-- histories.py:55 and 74: the constructor up to `len(self.histories[0,:])`, which raises
`IndexError` when no fragment was read. -/
def loadHistories (nevents : Option Nat) (text : List Char) : Res (PyHeader × List PyFrag) := do
  let r ← readHistory nevents text
  if stackable r.2 && !r.2.isEmpty then .ok r else .exit

/-- Conversion of every token of a row. -/
def floats : List (List Char) → Res (List ℚ)
  | [] => .ok []
  | t :: ts => do
    let x ← pyFloat t
    let xs ← floats ts
    pure (x :: xs)

/-- yields.py `np.loadtxt(filename)`: one row per non-blank line; comments and the check that all
rows have the same length are not modelled. -/
def loadRows : List (List Char) → Res (List (List ℚ))
  | [] => .ok []
  | l :: ls => do
    let row ← floats (pySplit l)
    let rows ← loadRows ls
    pure (if pySplit l = [] then rows else row :: rows)

/-- yields.py:112-121: `np.loadtxt` then `data[:maxNumberEvents]`. -/
def readYields (nevents : Option Nat) (text : List Char) : Res (List (List ℚ)) := do
  let rows ← loadRows (fileLines text)
  pure (match nevents with
    | none => rows
    | some n => rows.take (2 * n))

end CGMF.Parser

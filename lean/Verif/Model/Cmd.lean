import Mathlib.Algebra.Order.Field.Basic
import Verif.Model.Driver
import Verif.Model.Input

/-!
# The command line of cgmf.x

Model of `getopt` as called by `readUserInput`, of `readUserInput` and of `main` (utils/cgmf/cgmf.cpp).  `getopt` is the
GNU function with its default ordering (operands are skipped; `POSIXLY_CORRECT` unset).  `atoi`, `atof`, the file
system and the environment are parameters.  The characters of the output file are in Model/History; here a run is the list of
events written.
-/

namespace CGMF.Cmd

open CGMF.Driver CGMF.Input

variable {K : Type} [Field K] [LinearOrder K]

/-- The letters of the option string `"e:n:i:f:t:d:s:"` (cgmf.cpp:379); each takes an argument. -/
def letters : List Char := ['e', 'n', 'i', 'f', 't', 'd', 's']

/-- One element of `argv` that starts with `-`, from the second character on. An unknown letter is reported on
`stderr` (`?`, ignored by the `default` branch 402) and the next one is looked at. The result is the option found, if
any, with its argument in the same word, or `none` as argument when it is the next word. -/
def cluster : List Char → Option (Char × Option (List Char))
  | [] => none
  | c :: cs =>
    if c ∈ letters then some (c, if cs = [] then none else some cs)
    else cluster cs

/-- Successive results of `getopt` (379) on the arguments after the program name: letter and `optarg`.  `--` ends the
options, a word that is `-` or does not start with `-` is an operand. A letter at the very end has no argument
and gives `?`. -/
def getopt : List (List Char) → List (Char × List Char)
  | [] => []
  | w :: ws =>
    match w with
    | '-' :: c :: cs =>
      if c = '-' ∧ cs = [] then []
      else
        match cluster (c :: cs) with
        | none => getopt ws
        | some (l, some v) => (l, v) :: getopt ws
        | some (l, none) =>
          match ws with
          | [] => []
          | v :: ws' => (l, v) :: getopt ws'
    | _ => getopt ws

/-- The global variables (cgmf.cpp:36-42). -/
structure Opts (K : Type) where
  einc : K
  nevents : Int
  zaid : Int
  file : List Char
  window : K
  path : List Char
  start : Int
  deriving DecidableEq

/-- Their initial values (36-42); `tw` is 1e-8. -/
def Opts.initial (tw : K) : Opts K := ⟨-1, 0, 0, [], tw, [], 1⟩

/-- The switch (380-404). -/
def assign (atoi : List Char → Int) (atof : List Char → K) (o : Opts K) (p : Char × List Char) : Opts K :=
  if p.1 = 'e' then { o with einc := atof p.2 }
  else if p.1 = 'n' then { o with nevents := atoi p.2 }
  else if p.1 = 'i' then { o with zaid := atoi p.2 }
  else if p.1 = 'f' then { o with file := p.2 }
  else if p.1 = 't' then { o with window := atof p.2 }
  else if p.1 = 'd' then { o with path := p.2 }
  else if p.1 = 's' then { o with start := atoi p.2 }
  else o

/-- The option loop (379-405). -/
def options (atoi : List Char → Int) (atof : List Char → K) (tw : K) (argv : List (List Char)) : Opts K :=
  (getopt argv).foldl (assign atoi atof) (Opts.initial tw)

/-- What the program finds around it: `CGMFDATA`, directories, compiled-in data paths, files that can be created. -/
structure World where
  cgmfdata : Option (List Char)
  isDir : List Char → Bool
  inst : List Char
  build : List Char
  canWrite : List Char → Bool

/-- `readUserInput` (374-437) on rank `rank` (decimal): options, output file and data directory. -/
def readUserInput (atoi : List Char → Int) (atof : List Char → K) (tw : K) (w : World) (rank : List Char)
    (argv : List (List Char)) : Res (Opts K × List Char × List Char) :=
  let o := options atoi atof tw argv
  (checkWindow o.window).bind fun _ =>
    (setdatapath w.isDir w.inst w.build (if o.path = [] then w.cgmfdata.getD [] else o.path)).bind fun d =>
      .ok (o, outName o.nevents o.file rank, d)

/-- What a rank does: fragment yields (rank 0 only), nothing, or histories in a file: name, numbers of the header line
and events. -/
inductive Job (K Ev : Type) where
  | yields (zaid : Int) (einc : K) (count seed : Int) (name : List Char)
  | idle
  | histories (name : List Char) (header : Option (Int × K × K)) (events : List Ev)

/-- `main` (60-111) on rank `ip`. `fopen` is not checked (88): without a file the `fprintf` or `fclose` that follows is
undefined.  Each event constructor calls `checkInput` on the same arguments, so it is tested once.  With no
event rank 0 dereferences the null pointer in `printSummaryEvents` (318). -/
def main {S Ev : Type} (atoi : List Char → Int) (atof : List Char → K) (tw : K) (E : Engine S K)
    (gen : Reaction K → K → S → Ev × S) (w : World) (ip : Int) (rank : List Char) (argv : List (List Char)) :
    Res (Job K Ev) :=
  (readUserInput atoi atof tw w rank argv).bind fun r =>
    if r.1.nevents < 0 then
      (if ip = 0 then .ok (.yields r.1.zaid r.1.einc (-r.1.nevents) r.1.start r.2.1) else .ok .idle)
    else if w.canWrite r.2.1 = false then .ub
    else if r.1.nevents = 0 then
      (if ip = 0 then .ub else .ok (.histories r.2.1 none []))
    else
      (checkInput r.1.zaid r.1.einc).bind fun _ =>
        (runRank E gen ⟨r.1.zaid, r.1.einc⟩ r.1.window r.1.nevents.toNat r.1.start ip).bind fun evs =>
          .ok (.histories r.2.1 (if ip = 0 then some (r.1.zaid, r.1.einc, r.1.window) else none) evs)

end CGMF.Cmd

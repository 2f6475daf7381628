import Verif.Model.Text

/-!
# Writing history and yields files

Model of utils/cgmf/cgmf.cpp `printEventToFile` (444-565), of the header line and of the output loop
of libcgmf/src/cgmfEvents.cpp `cgmfYields` (533-574), on characters.
-/

namespace CGMF.Printer

open CGMF.Text

/-- Getters for one kind of particle: three direction cosines and the energy, by index
(cgmfEvents.h, e.g. `getNeutronDircosu(i)`). -/
structure Getters where
  u : Int → ℚ
  v : Int → ℚ
  w : Int → ℚ
  e : Int → ℚ

/-- Scalar getters of one fragment. -/
structure PFrag where
  a : Int
  z : Int
  xe : ℚ
  j : ℚ
  p : Int
  ke : ℚ
  kePost : ℚ
  nu : Nat
  nug : Nat
  pre : ℚ × ℚ × ℚ
  post : ℚ × ℚ × ℚ

/-- An event as `printEventToFile` sees it. -/
structure PView where
  light : PFrag
  heavy : PFrag
  nuPre : Nat
  cmN : Getters
  labN : Getters
  phot : Getters
  age : Int → ℚ
  preN : Getters

/-- `" %.<d>f"`. -/
def sp (cs : List Char) : List Char := ' ' :: cs

/-- cgmf.cpp:455-459 and 506-510: the fragment line; `last` is the tenth field. -/
def fragLine (f : PFrag) (last : List Char) : List Char :=
  sp (fmtInt f.a) ++ sp (fmtInt f.z) ++ sp (fmtFixed 3 f.xe) ++ sp (fmtFixed 1 f.j)
    ++ sp (fmtInt f.p) ++ sp (fmtFixed 3 f.ke) ++ sp (fmtFixed 3 f.kePost)
    ++ sp (fmtInt f.nu) ++ sp (fmtInt f.nug) ++ sp last ++ ['\n']

/-- cgmf.cpp:461-464 and 512-515: the momentum line. -/
def momLine (f : PFrag) : List Char :=
  sp (fmtFixed 3 f.pre.1) ++ sp (fmtFixed 3 f.pre.2.1) ++ sp (fmtFixed 3 f.pre.2.2)
    ++ sp (fmtFixed 3 f.post.1) ++ sp (fmtFixed 3 f.post.2.1) ++ sp (fmtFixed 3 f.post.2.2)
    ++ ['\n']

/-- `fprintf(fp, "%.3f %.3f %.3f %.3f ", u, v, w, e)` for particle `i`. -/
def vec4 (g : Getters) (i : Int) : List Char :=
  fmtFixed 3 (g.u i) ++ [' '] ++ fmtFixed 3 (g.v i) ++ [' '] ++ fmtFixed 3 (g.w i) ++ [' ']
    ++ fmtFixed 3 (g.e i) ++ [' ']

/-- Body of the photon loops (cgmf.cpp:487-498, 538-549). -/
def photonItem (w : ℚ) (g : Getters) (age : Int → ℚ) (i : Int) : List Char :=
  if w < 0 then vec4 g i ++ (fmtG (age i) ++ [' ']) else vec4 g i

/-- `for (n1 = lo; n1 < lo + n; n1++)` concatenating what the body prints. -/
def forPrint (body : Int → List Char) (lo : Int) : Nat → List Char
  | 0 => []
  | n + 1 => body lo ++ forPrint body (lo + 1) n

/-- A particle line: the loop, then a newline if there was at least one particle. -/
def particleLine (body : Int → List Char) (lo : Int) (n : Nat) : List Char :=
  forPrint body lo n ++ (if n > 0 then ['\n'] else [])

/-- cgmf.cpp:444-565 `printEventToFile`. -/
def printEvent (w : ℚ) (ev : PView) : List Char :=
  -- light fragment, 453-500
  fragLine ev.light ['0'] ++ momLine ev.light
    ++ particleLine (vec4 ev.cmN) 0 ev.light.nu
    ++ particleLine (vec4 ev.labN) 0 ev.light.nu
    ++ particleLine (photonItem w ev.phot ev.age) 0 ev.light.nug
  -- heavy fragment, 502-549
    ++ fragLine ev.heavy (fmtInt ev.nuPre) ++ momLine ev.heavy
    ++ particleLine (vec4 ev.cmN) ev.light.nu ev.heavy.nu
    ++ particleLine (vec4 ev.labN) ev.light.nu ev.heavy.nu
    ++ particleLine (photonItem w ev.phot ev.age) ev.light.nug ev.heavy.nug
  -- pre-fission neutrons, 551-560
    ++ particleLine (vec4 ev.preN) 0 ev.nuPre

/-- cgmf.cpp:89: the header line `"# %5i %g %g\n"`, printed by rank 0 only. -/
def headerLine (zaid : Int) (einc w : ℚ) : List Char :=
  '#' :: ' ' :: fmtInt5 zaid ++ sp (fmtG einc) ++ sp (fmtG w) ++ ['\n']

/-- cgmf.cpp:88-99: contents of the history file of rank `ip`. -/
def rankFile (ip : Nat) (zaid : Int) (einc w : ℚ) (evs : List PView) : List Char :=
  (if ip = 0 then headerLine zaid einc w else []) ++ evs.flatMap (printEvent w)

/-- One fragment row of the yields file. -/
structure YFrag where
  z : Int
  a : Int
  ke : ℚ
  xe : ℚ
  spin : ℚ
  parity : Int
  px : ℚ
  py : ℚ
  pz : ℚ
  deriving DecidableEq

/-- cgmfEvents.cpp:554-560 and 562-568: `of << Z << " " << A << ... << endl`.  The default format
of an output stream for `double` is `%g` with precision 6. -/
def yieldRow (f : YFrag) : List Char :=
  fmtInt f.z ++ [' '] ++ fmtInt f.a ++ [' '] ++ fmtG f.ke ++ [' '] ++ fmtG f.xe ++ [' ']
    ++ fmtG f.spin ++ [' '] ++ fmtInt f.parity ++ [' '] ++ fmtG f.px ++ [' '] ++ fmtG f.py ++ [' ']
    ++ fmtG f.pz ++ [' '] ++ ['\n']

/-- cgmfEvents.cpp:552-570: the loop over events. -/
def yieldsFile (evs : List (YFrag × YFrag)) : List Char :=
  evs.flatMap (fun e => yieldRow e.1 ++ yieldRow e.2)

end CGMF.Printer

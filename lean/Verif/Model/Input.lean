import Mathlib.Algebra.Order.Field.Basic
import Verif.Model.Basics

/-!
# Input checking, reaction options and data path

Numbers: `double` is an element of an arbitrary linearly ordered field `K`.
`int` is `Int` restricted by the callers' hypotheses to the 32-bit range where it
matters (`abs(INT_MIN)`).
-/

namespace CGMF.Input

variable {K : Type _} [Field K] [LinearOrder K]

/-- cgmfEvents.cpp:584 `allowedIsotopes`. -/
def allowedIsotopes : List Int :=
  [-94238, -94240, -94242, -94244, -98252, -98254, 92233, 92234, 92235, 92238, 93237, 94239, 94241]

/-- Smallest `int`; `abs` of it overflows (undefined). -/
def intMin : Int := -2147483648

/-- cgmfEvents.cpp:580-596 `cgmfEvent::checkInput`.  The arguments are passed by value
in the C++ code, so nothing but the decision is observable. -/
def checkInput (isotope : Int) (einc : K) : Res Unit :=
  if einc = 0 ∧ isotope = intMin then .ub else
  let iso : Int := if einc = 0 then -|isotope| else isotope
  if iso ∉ allowedIsotopes then .exit
  else if iso < 0 ∧ einc ≠ 0 then .exit
  else if iso > 0 ∧ (einc > 20 ∨ einc ≤ 0) then .exit
  else .ok ()

/-- Options fixed per isotope, FissionFragments.cpp:203-357.
`rt = some r` is `energySortingOption == "fixedRT"` with `RT = r` (in tenths), `none` is "RTA". -/
structure Options where
  dZ : Int
  dZ1 : Int
  fixedRT : Bool
  anisotropy : Bool
  sf : Bool
  deriving Repr, DecidableEq

/-- FissionFragments.cpp:203-357 `setOptions`: the switch on the (signed) target id. The strings
`yieldsOption` ("Systematics" in every case) and `yieldsFilename` are left out. -/
def setOptions (zaid : Int) (einc : K) : Res Options :=
  let induced (rt : Bool) : Res Options := .ok ⟨3, 6, rt, true, false⟩
  let spont (dz : Int) (rt : Bool) : Res Options :=
    if einc ≠ 0 then .exit else .ok ⟨dz, dz, rt, false, true⟩
  if zaid = 92233 then induced false
  else if zaid = 92234 then induced true
  else if zaid = 92235 then induced false
  else if zaid = 92238 then (if einc = 0 then .exit else induced false)
  else if zaid = 93237 then induced false
  else if zaid = 94238 then spont 6 true
  else if zaid = 94239 then induced false
  else if zaid = 94240 then spont 6 false
  else if zaid = 94241 then induced false
  else if zaid = 94242 then spont 6 false
  else if zaid = 94244 then spont 6 true
  else if zaid = 98252 then spont 7 false
  else if zaid = 98254 then spont 6 false
  else .exit

/-- Size of the mass table, FissionFragments.h:55 `MAX_ZAID`. -/
def maxZaid : Int := 140000

/-- FissionFragments.cpp:4873-4880 `getMassExcess`: array read without a range check, then
termination if the entry is zero.  `masses` is the content of the table (read from a file). -/
def getMassExcess (masses : Int → K) (zaid : Int) : Res K :=
  if zaid < 0 ∨ maxZaid ≤ zaid then .ub
  else if masses zaid = 0 then .exit
  else .ok (masses zaid)

/-- What the `FissionFragments` constructor derives from its arguments. -/
structure Compound (K : Type _) where
  zt : Int
  at' : Int
  zc : Int
  ac : Int
  zaidc : Int
  asym : Int
  zsym : Int
  massExcess : K
  sn : K
  opts : Options
  deriving DecidableEq

/-- `int(x/1000.0)`: C++ conversion truncates towards zero. -/
def truncDiv1000 (z : Int) : Int := z.tdiv 1000

/-- FissionFragments.cpp:117-118: separation energy of the compound nucleus. -/
def compoundSn (masses : Int → K) (zaidc : Int) (einc : K) : Res K :=
  if einc > 0 then do
    let a ← getMassExcess masses zaidc
    let b ← getMassExcess masses (zaidc - 1)
    let c ← getMassExcess masses 1
    pure (-a + b + c)
  else pure 0

/-- FissionFragments.cpp:84-129, constructor up to and including `setOptions()`. `init()` and the
spin override are modelled elsewhere.  `Ac/2` is C++ truncating division. -/
def fragmentsCtor (masses : Int → K) (zaid : Int) (einc : K) : Res (Compound K) := do
  let zt := truncDiv1000 zaid
  let at' := zaid - 1000 * zt
  let ac := if einc = 0 then at' else at' + 1
  let zaidc := 1000 * zt + ac
  let m ← getMassExcess masses zaidc
  let sn ← compoundSn masses zaidc einc
  let o ← setOptions zaid einc
  pure ⟨zt, at', zt, ac, zaidc, ac.tdiv 2, zt.tdiv 2, m, sn, o⟩

/-- Event construction up to the fragment generator: cgmfEvents.cpp:369-401
(`checkInput`, then `new FissionFragments`).  The `cgmfYields` constructor
(cgmfEvents.cpp:533-541) calls `fragmentsCtor` without `checkInput`. -/
def eventReaction (masses : Int → K) (zaid : Int) (einc : K) : Res (Compound K) := do
  checkInput zaid einc
  fragmentsCtor masses zaid einc

/-- cgmfEvents.cpp:82-91: the path given, or the first default that is a directory. -/
def choosePath (isDir : List Char → Bool) (inst build path : List Char) : Res (List Char) :=
  if path = [] then
    if isDir inst then .ok inst
    else if isDir build then .ok build
    else .exit
  else .ok path

/-- cgmfEvents.cpp:92. -/
def addSeparator (path : List Char) : Res (List Char) :=
  match path.getLast? with
  | none => .ub
  | some c => if c ≠ '/' then .ok (path ++ ['/']) else .ok path

/-- cgmfEvents.cpp:80-95 `setdatapath`.  `isDir` is the file-system oracle behind
`checkdatapath` (cgmfEvents.cpp:66-75), `inst`/`build` the compiled-in defaults.  The value
returned is the new content of `datadir`.  `path.back()` on an empty string is undefined;
it is only reached with an empty path if a compiled-in default is empty. -/
def setdatapath (isDir : List Char → Bool) (inst build path : List Char) : Res (List Char) := do
  let base ← choosePath isDir inst build path
  addSeparator base

end CGMF.Input

import Mathlib.Algebra.Order.Ring.Rat
import Mathlib.Algebra.Field.Rat
import Verif.Model.Event

/-!
# The accessors of the C interface

libcgmf/include/cgmfEvents_capi.h (declarations) and libcgmf/src/cgmfEvents_capi.cpp (definitions), with the getters of the
class `cgmfEvent` they call (libcgmf/include/cgmfEvents.h). The life of the objects behind the pointer is in
`Model/Lifecycle.lean`; here an event is what it contains. Numbers of type `int` and `float` are shown as numbers of `K`; an
accessor without parameter ignores the index.
-/

namespace CGMF.CApi

open CGMF.Event

variable {K : Type} [Field K] [LinearOrder K]

/-- One fragment of the event, `eventLF` or `eventHF` (config-ff.h:61-104, members 89-100); `parts` has the particles. -/
structure Fragment (K : Type) where
  a : Int
  z : Int
  ke : K
  kePost : K
  u : K
  spin : K
  parity : Int
  pre : K × K × K
  post : K × K × K
  dircosu : K
  dircosv : K
  dircosw : K
  parts : FragRecord K

/-- An object of the class `cgmfEvent` (cgmfEvents.h:112-129, 224-234). -/
structure Obj (K : Type) where
  lf : Fragment K
  hf : Fragment K
  data : EventData K

/-- The end of the constructor (cgmfEvents.cpp:433-504). -/
def construct (sqrt : K → K) (nmass time : K) (lf hf : Fragment K) (preN : Nat) (pfn : List (PreNeutron K)) : Res (Obj K) :=
  (assemble sqrt nmass time lf.parts hf.parts preN pfn).bind fun d => .ok ⟨lf, hf, d⟩

/-- The declarations (cgmfEvents_capi.h:21-114): name and types of the parameters, all with C linkage. -/
def header : List (String × List String) :=
  [("setrngdptr", ["double (*)(void)"]), ("checkdatapath", ["const char*"]), ("setdatapath", ["const char*"]),
   ("cgm", ["int", "double", "int*", "double*", "int*", "double*"]),
   ("cgmf_genfissevent", ["int", "double", "double", "double"]), ("cgmf_genfissyields", ["int", "double", "int"]),
   ("cgmf_getnnu", []), ("cgmf_getnerg", ["int"]), ("cgmf_getndircosu", ["int"]), ("cgmf_getndircosv", ["int"]),
   ("cgmf_getndircosw", ["int"]), ("cgmf_getntme", ["int"]),
   ("cgmf_getcmnerg", ["int"]), ("cgmf_getcmndircosu", ["int"]), ("cgmf_getcmndircosv", ["int"]),
   ("cgmf_getcmndircosw", ["int"]),
   ("cgmf_getgnu", []), ("cgmf_getgerg", ["int"]), ("cgmf_getgdircosu", ["int"]), ("cgmf_getgdircosv", ["int"]),
   ("cgmf_getgdircosw", ["int"]), ("cgmf_getgtme", ["int"]),
   ("cgmf_getlfmass", []), ("cgmf_getlfcharge", []), ("cgmf_getlfke", []), ("cgmf_getlfkepost", []), ("cgmf_getlfu", []),
   ("cgmf_getlfspin", []), ("cgmf_getlfparity", []), ("cgmf_getlfnnu", []), ("cgmf_getlfgnu", []),
   ("cgmf_getlfdircosu", []), ("cgmf_getlfdircosv", []), ("cgmf_getlfdircosw", []),
   ("cgmf_getpostlfdircosu", []), ("cgmf_getpostlfdircosv", []), ("cgmf_getpostlfdircosw", []),
   ("cgmf_getlfpremomentum_x", []), ("cgmf_getlfpremomentum_y", []), ("cgmf_getlfpremomentum_z", []),
   ("cgmf_getlfpostmomentum_x", []), ("cgmf_getlfpostmomentum_y", []), ("cgmf_getlfpostmomentum_z", []),
   ("cgmf_gethfmass", []), ("cgmf_gethfcharge", []), ("cgmf_gethfke", []), ("cgmf_gethfkepost", []), ("cgmf_gethfu", []),
   ("cgmf_gethfspin", []), ("cgmf_gethfparity", []), ("cgmf_gethfnnu", []), ("cgmf_gethfgnu", []),
   ("cgmf_gethfdircosu", []), ("cgmf_gethfdircosv", []), ("cgmf_gethfdircosw", []),
   ("cgmf_getposthfdircosu", []), ("cgmf_getposthfdircosv", []), ("cgmf_getposthfdircosw", []),
   ("cgmf_gethfpremomentum_x", []), ("cgmf_gethfpremomentum_y", []), ("cgmf_gethfpremomentum_z", []),
   ("cgmf_gethfpostmomentum_x", []), ("cgmf_gethfpostmomentum_y", []), ("cgmf_gethfpostmomentum_z", []),
   ("cgmf_getprennu", []), ("cgmf_getprenerg", ["int"]), ("cgmf_getprendircosu", ["int"]),
   ("cgmf_getprendircosv", ["int"]), ("cgmf_getprendircosw", ["int"]),
   ("cgmf_clean", [])]

/-- The definitions that are no accessors (cgmfEvents_capi.cpp:27-80, 165-168). -/
def actions : List (String × List String) :=
  [("setrngdptr", ["double (*)(void)"]), ("checkdatapath", ["const char*"]), ("setdatapath", ["const char*"]),
   ("cgm", ["int", "double", "int*", "double*", "int*", "double*"]),
   ("cgmf_genfissevent", ["int", "double", "double", "double"]),
   ("cgmf_genfissyields", ["int", "double", "int", "string"]), ("cgmf_clean", [])]

/-- A number that needs no index. -/
def plain (f : Obj K → K) : Obj K → Int → Res K := fun o _ => .ok (f o)

/-- The accessors (cgmfEvents_capi.cpp:85-160, 170-231) with the getters behind them (cgmfEvents.h:44-108, 156-218). -/
def accessors : List ((String × List String) × (Obj K → Int → Res K)) :=
  [(("cgmf_getnnu", []), plain fun o => (o.data.neutronNu : K)),
   (("cgmf_getnerg", ["int"]), fun (o : Obj K) i => getNeutronEnergy o.data i),
   (("cgmf_getcmnerg", ["int"]), fun (o : Obj K) i => getCmNeutronEnergy o.data i),
   (("cgmf_getndircosu", ["int"]), fun (o : Obj K) i => getNeutronDircosu o.data i),
   (("cgmf_getcmndircosu", ["int"]), fun (o : Obj K) i => getCmNeutronDircosu o.data i),
   (("cgmf_getndircosv", ["int"]), fun (o : Obj K) i => getNeutronDircosv o.data i),
   (("cgmf_getcmndircosv", ["int"]), fun (o : Obj K) i => getCmNeutronDircosv o.data i),
   (("cgmf_getndircosw", ["int"]), fun (o : Obj K) i => getNeutronDircosw o.data i),
   (("cgmf_getcmndircosw", ["int"]), fun (o : Obj K) i => getCmNeutronDircosw o.data i),
   (("cgmf_getntme", ["int"]), fun (o : Obj K) i => getNeutronAge o.data i),
   (("cgmf_getgnu", []), plain fun o => (o.data.photonNu : K)),
   (("cgmf_getgerg", ["int"]), fun (o : Obj K) i => getPhotonEnergy o.data i),
   (("cgmf_getgdircosu", ["int"]), fun (o : Obj K) i => getPhotonDircosu o.data i),
   (("cgmf_getgdircosv", ["int"]), fun (o : Obj K) i => getPhotonDircosv o.data i),
   (("cgmf_getgdircosw", ["int"]), fun (o : Obj K) i => getPhotonDircosw o.data i),
   (("cgmf_getgtme", ["int"]), fun (o : Obj K) i => getPhotonAge o.data i),
   (("cgmf_getlfmass", []), plain fun o => (o.lf.a : K)), (("cgmf_gethfmass", []), plain fun o => (o.hf.a : K)),
   (("cgmf_getlfcharge", []), plain fun o => (o.lf.z : K)), (("cgmf_gethfcharge", []), plain fun o => (o.hf.z : K)),
   (("cgmf_getlfke", []), plain fun o => (o.lf.ke : K)), (("cgmf_gethfke", []), plain fun o => (o.hf.ke : K)),
   (("cgmf_getlfkepost", []), plain fun o => (o.lf.kePost : K)), (("cgmf_gethfkepost", []), plain fun o => (o.hf.kePost : K)),
   (("cgmf_getlfu", []), plain fun o => (o.lf.u : K)), (("cgmf_gethfu", []), plain fun o => (o.hf.u : K)),
   (("cgmf_getlfspin", []), plain fun o => (o.lf.spin : K)), (("cgmf_gethfspin", []), plain fun o => (o.hf.spin : K)),
   (("cgmf_getlfparity", []), plain fun o => (o.lf.parity : K)), (("cgmf_gethfparity", []), plain fun o => (o.hf.parity : K)),
   (("cgmf_getlfnnu", []), plain fun o => (o.lf.parts.nu : K)), (("cgmf_gethfnnu", []), plain fun o => (o.hf.parts.nu : K)),
   (("cgmf_getprennu", []), plain fun o => (o.data.preNu : K)),
   (("cgmf_getprenerg", ["int"]), fun (o : Obj K) i => getPreFissionNeutronEnergy o.data i),
   (("cgmf_getprendircosu", ["int"]), fun (o : Obj K) i => getPreFissionNeutronDircosu o.data i),
   (("cgmf_getprendircosv", ["int"]), fun (o : Obj K) i => getPreFissionNeutronDircosv o.data i),
   (("cgmf_getprendircosw", ["int"]), fun (o : Obj K) i => getPreFissionNeutronDircosw o.data i),
   (("cgmf_getlfgnu", []), plain fun o => (o.lf.parts.nug : K)), (("cgmf_gethfgnu", []), plain fun o => (o.hf.parts.nug : K)),
   (("cgmf_getlfdircosu", []), plain fun o => (o.lf.dircosu : K)), (("cgmf_gethfdircosu", []), plain fun o => (o.hf.dircosu : K)),
   (("cgmf_getlfdircosv", []), plain fun o => (o.lf.dircosv : K)), (("cgmf_gethfdircosv", []), plain fun o => (o.hf.dircosv : K)),
   (("cgmf_getlfdircosw", []), plain fun o => (o.lf.dircosw : K)), (("cgmf_gethfdircosw", []), plain fun o => (o.hf.dircosw : K)),
   (("cgmf_getlfpremomentum_x", []), plain fun o => (o.lf.pre.1 : K)), (("cgmf_gethfpremomentum_x", []), plain fun o => (o.hf.pre.1 : K)),
   (("cgmf_getlfpremomentum_y", []), plain fun o => (o.lf.pre.2.1 : K)),
   (("cgmf_gethfpremomentum_y", []), plain fun o => (o.hf.pre.2.1 : K)),
   (("cgmf_getlfpremomentum_z", []), plain fun o => (o.lf.pre.2.2 : K)),
   (("cgmf_gethfpremomentum_z", []), plain fun o => (o.hf.pre.2.2 : K)),
   (("cgmf_getlfpostmomentum_x", []), plain fun o => (o.lf.post.1 : K)),
   (("cgmf_gethfpostmomentum_x", []), plain fun o => (o.hf.post.1 : K)),
   (("cgmf_getlfpostmomentum_y", []), plain fun o => (o.lf.post.2.1 : K)),
   (("cgmf_gethfpostmomentum_y", []), plain fun o => (o.hf.post.2.1 : K)),
   (("cgmf_getlfpostmomentum_z", []), plain fun o => (o.lf.post.2.2 : K)),
   (("cgmf_gethfpostmomentum_z", []), plain fun o => (o.hf.post.2.2 : K))]

/-- Names a C program can be linked with (cgmfEvents_capi.cpp:27-231 with cgmfEvents_capi.h:17-19).  A definition has C
linkage if the header declares it with the same parameters; otherwise it is another function, with a C++ name. -/
def linked (name : String) : Bool :=
  (actions ++ (accessors (K := ℚ)).map (·.1)).any fun d => d.1 == name && header.contains d

/-- The accessor behind a name (cgmfEvents_capi.cpp:85-231). -/
def accessor (name : String) : Option (Obj K → Int → Res K) :=
  ((accessors (K := K)).find? fun d => d.1.1 == name && header.contains d.1).map (·.2)

/-- A C program, as far as the interface sees it: it makes events (`cgmf_genfissevent`, cgmfEvents_capi.cpp:64-67; `o` is the event made) and calls accessors. -/
inductive Stmt (K : Type) where
  | gen (o : Obj K)
  | get (name : String) (i : Int)

/-- Its execution (cgmfEvents_capi.cpp:20-22, 64-67, 85-231): the numbers returned. The pointer is null before the first event. -/
def exec : Option (Obj K) → List (Stmt K) → Res (List K)
  | _, [] => .ok []
  | _, .gen o :: p => exec (some o) p
  | none, .get _ _ :: _ => .ub
  | some o, .get name i :: p =>
    match accessor name with
    | some f => (f o i).bind fun x => (exec (some o) p).bind fun xs => .ok (x :: xs)
    | none => .ub

/-- Compiled against the header and linked with the library (cgmfEvents_capi.h, cgmfEvents_capi.cpp): `none` if a name
has no definition. -/
def run (p : List (Stmt K)) : Option (Res (List K)) :=
  if p.all (fun s => match s with
    | .gen _ => linked "cgmf_genfissevent"
    | .get name _ => linked name) then some (exec none p) else none

end CGMF.CApi

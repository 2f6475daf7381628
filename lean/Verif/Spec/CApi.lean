import Verif.Model.CApi

/-!
# What the C interface promises

A quantity of an event, the name of its accessor, and its value from the content of the event: the two fragments, their
particles, the pre-fission neutrons and the time of the fission.
-/

namespace CGMF.CApiSpec

open CGMF.Event CGMF.CApi

/-- First, second or third direction. -/
inductive Axis where
  | one | two | three
  deriving DecidableEq

/-- Quantities of a fragment. -/
inductive FragQ where
  | mass | charge | ke | kePost | u | spin | parity | neutrons | photons
  | dir (a : Axis) | pre (a : Axis) | post (a : Axis)
  deriving DecidableEq

/-- Quantities of a particle. -/
inductive PartQ where
  | energy | dir (a : Axis)
  deriving DecidableEq

/-- Quantities of an event. -/
inductive Quantity where
  | frag (heavy : Bool) (q : FragQ)
  | neutrons | photons | preNeutrons
  | neutron (q : PartQ) | cmNeutron (q : PartQ) | photon (q : PartQ) | preNeutron (q : PartQ)
  | neutronTime | photonTime
  deriving DecidableEq

def Axis.uvw : Axis → String
  | .one => "u" | .two => "v" | .three => "w"

def Axis.xyz : Axis → String
  | .one => "x" | .two => "y" | .three => "z"

def FragQ.name : FragQ → String
  | .mass => "mass" | .charge => "charge" | .ke => "ke" | .kePost => "kepost" | .u => "u" | .spin => "spin"
  | .parity => "parity" | .neutrons => "nnu" | .photons => "gnu"
  | .dir a => "dircos" ++ a.uvw | .pre a => "premomentum_" ++ a.xyz | .post a => "postmomentum_" ++ a.xyz

def PartQ.name : PartQ → String
  | .energy => "erg" | .dir a => "dircos" ++ a.uvw

/-- The name of the accessor. -/
def Quantity.name : Quantity → String
  | .frag heavy q => "cgmf_get" ++ (if heavy then "hf" else "lf") ++ q.name
  | .neutrons => "cgmf_getnnu" | .photons => "cgmf_getgnu" | .preNeutrons => "cgmf_getprennu"
  | .neutron q => "cgmf_getn" ++ q.name | .cmNeutron q => "cgmf_getcmn" ++ q.name
  | .photon q => "cgmf_getg" ++ q.name | .preNeutron q => "cgmf_getpren" ++ q.name
  | .neutronTime => "cgmf_getntme" | .photonTime => "cgmf_getgtme"

variable {K : Type} [Field K]

def Axis.of (a : Axis) (v : K × K × K) : K :=
  match a with
  | .one => v.1 | .two => v.2.1 | .three => v.2.2

def FragQ.value (f : Fragment K) : FragQ → K
  | .mass => f.a | .charge => f.z | .ke => f.ke | .kePost => f.kePost | .u => f.u | .spin => f.spin | .parity => f.parity
  | .neutrons => f.parts.nu | .photons => f.parts.nug
  | .dir a => a.of (f.dircosu, f.dircosv, f.dircosw) | .pre a => a.of f.pre | .post a => a.of f.post

/-- Entry `i` of a list, `-1` outside. -/
def entry (l : List K) (i : Int) : K := if i < 0 then -1 else l.getD i.toNat (-1)

/-- What an event contains. -/
structure Content (K : Type) where
  light : Fragment K
  heavy : Fragment K
  pre : List (PreNeutron K)
  time : K

/-- The particles of both fragments, light first. -/
def both (c : Content K) (n : FragRecord K → Nat) (g : FragRecord K → List K) : List K :=
  (g c.light.parts).take (n c.light.parts) ++ (g c.heavy.parts).take (n c.heavy.parts)

/-- The value of a quantity. -/
def Quantity.value (sqrt : K → K) (nmass : K) (c : Content K) (i : Int) : Quantity → K
  | .frag heavy q => q.value (if heavy then c.heavy else c.light)
  | .neutrons => (c.light.parts.nu + c.heavy.parts.nu : Nat)
  | .photons => (c.light.parts.nug + c.heavy.parts.nug : Nat)
  | .preNeutrons => c.pre.length
  | .neutron .energy => entry (both c (·.nu) (·.neutronEnergies)) i
  | .neutron (.dir .one) => entry (both c (·.nu) (·.neutronDircosu)) i
  | .neutron (.dir .two) => entry (both c (·.nu) (·.neutronDircosv)) i
  | .neutron (.dir .three) => entry (both c (·.nu) (·.neutronDircosw)) i
  | .cmNeutron .energy => entry (both c (·.nu) (·.cmNeutronEnergies)) i
  | .cmNeutron (.dir .one) => entry (both c (·.nu) (·.cmNeutronDircosu)) i
  | .cmNeutron (.dir .two) => entry (both c (·.nu) (·.cmNeutronDircosv)) i
  | .cmNeutron (.dir .three) => entry (both c (·.nu) (·.cmNeutronDircosw)) i
  | .photon .energy => entry (both c (·.nug) (·.photonEnergies)) i
  | .photon (.dir .one) => entry (both c (·.nug) (·.photonDircosu)) i
  | .photon (.dir .two) => entry (both c (·.nug) (·.photonDircosv)) i
  | .photon (.dir .three) => entry (both c (·.nug) (·.photonDircosw)) i
  | .preNeutron .energy => entry (c.pre.map fun p => nmass * (p.vx ^ 2 + p.vy ^ 2 + p.vz ^ 2) / 2) i
  | .preNeutron (.dir a) => entry (c.pre.map fun p => a.of (p.vx, p.vy, p.vz) / sqrt (p.vx ^ 2 + p.vy ^ 2 + p.vz ^ 2)) i
  | .neutronTime => entry (List.replicate (c.light.parts.nu + c.heavy.parts.nu) c.time) i
  | .photonTime => entry ((both c (·.nug) (·.photonAges)).map fun a => c.time + a) i

end CGMF.CApiSpec

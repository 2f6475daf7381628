import Verif.Model.Driver

/-!
# Specification of a run and of its summary

`Content` is what an event contains, as lists; `specSummary` is defined with plain list means, not
with the accumulators of the driver.
-/

namespace CGMF.Spec

open CGMF.Driver

variable {K : Type _} [Field K] [LinearOrder K]

/-- What an event contains.  Neutrons are pairs (centre-of-mass energy, laboratory energy). -/
structure Content (K : Type _) where
  aL : Int
  zL : Int
  aH : Int
  zH : Int
  keL : K
  keH : K
  xeL : K
  xeH : K
  jL : K
  jH : K
  lightNeutrons : List (K × K)
  heavyNeutrons : List (K × K)
  preNeutrons : List K
  lightPhotons : List K
  heavyPhotons : List K

/-- The getter contract proved in C03/C04: list entry or -1. -/
def showList (xs : List K) (i : Int) : K :=
  if h : 0 ≤ i ∧ i < xs.length then xs[i.toNat]'(by omega) else -1

/-- The event with this content as seen through the getters. -/
def Content.view (e : Content K) : View K :=
  { aL := e.aL, zL := e.zL, aH := e.aH, zH := e.zH, keL := e.keL, keH := e.keH,
    xeL := e.xeL, xeH := e.xeH, jL := e.jL, jH := e.jH,
    nuL := e.lightNeutrons.length, nuH := e.heavyNeutrons.length,
    nuPre := e.preNeutrons.length,
    cmN := showList ((e.lightNeutrons ++ e.heavyNeutrons).map Prod.fst),
    labN := showList ((e.lightNeutrons ++ e.heavyNeutrons).map Prod.snd),
    preN := showList e.preNeutrons,
    nugL := e.lightPhotons.length, nugH := e.heavyPhotons.length,
    phE := showList (e.lightPhotons ++ e.heavyPhotons) }

/-- Event average. -/
def mean (evs : List (Content K)) (f : Content K → K) : K := (evs.map f).sum / (evs.length : K)

/-- Average over all particles of all events (0 if there is none). -/
def perParticle (evs : List (Content K)) (f : Content K → List K) : K :=
  (evs.flatMap f).sum / ((max (evs.flatMap f).length 1 : Nat) : K)

/-- The summary a user expects for a list of events. -/
def specSummary (evs : List (Content K)) : Summary K :=
  { zL := mean evs (fun e => (e.zL : K)), aL := mean evs (fun e => (e.aL : K)),
    zH := mean evs (fun e => (e.zH : K)), aH := mean evs (fun e => (e.aH : K)),
    keL := mean evs (·.keL), keH := mean evs (·.keH), tke := mean evs (fun e => e.keL + e.keH),
    xeL := mean evs (·.xeL), xeH := mean evs (·.xeH), txe := mean evs (fun e => e.xeL + e.xeH),
    jL := mean evs (·.jL), jH := mean evs (·.jH), j := mean evs (fun e => (e.jL + e.jH) / 2),
    nuL := mean evs (fun e => (e.lightNeutrons.length : K)),
    nuH := mean evs (fun e => (e.heavyNeutrons.length : K)),
    nuPre := mean evs (fun e => (e.preNeutrons.length : K)),
    nuTot := mean evs (fun e =>
      ((e.lightNeutrons.length + e.heavyNeutrons.length + e.preNeutrons.length : Nat) : K)),
    ecmL := perParticle evs (fun e => e.lightNeutrons.map Prod.fst),
    ecmH := perParticle evs (fun e => e.heavyNeutrons.map Prod.fst),
    ecmPre := perParticle evs (·.preNeutrons),
    ecmTot := perParticle evs (fun e =>
      e.lightNeutrons.map Prod.fst ++ e.heavyNeutrons.map Prod.fst ++ e.preNeutrons),
    elabL := perParticle evs (fun e => e.lightNeutrons.map Prod.snd),
    elabH := perParticle evs (fun e => e.heavyNeutrons.map Prod.snd),
    elabPre := perParticle evs (·.preNeutrons),
    elabTot := perParticle evs (fun e =>
      e.lightNeutrons.map Prod.snd ++ e.heavyNeutrons.map Prod.snd ++ e.preNeutrons),
    nugL := mean evs (fun e => (e.lightPhotons.length : K)),
    nugH := mean evs (fun e => (e.heavyPhotons.length : K)),
    nugTot := mean evs (fun e => ((e.lightPhotons.length + e.heavyPhotons.length : Nat) : K)),
    egL := perParticle evs (·.lightPhotons), egH := perParticle evs (·.heavyPhotons),
    egTot := perParticle evs (fun e => e.lightPhotons ++ e.heavyPhotons) }

end CGMF.Spec

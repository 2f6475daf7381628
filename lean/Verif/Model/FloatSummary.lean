import Verif.Model.Driver
import Mathlib.Data.Real.Basic

/-!
# The summary of a run in floating-point arithmetic

Model of `recordEvent` and of the summary of utils/cgmf/cgmf.cpp in an arithmetic whose every result is rounded by `fl`.  The real
totals of the ranks are added by `MPI_Reduce` in an order that the program does not choose (and that may differ from one total to the
next): any order and any grouping of the ranks.  Whole numbers are exact (their range is the subject of `Model/Driver.lean` and of C138),
and exact when they are converted to `double`.
-/

namespace CGMF.FpRun

open CGMF.Driver

section

variable (fl : ℝ → ℝ)

/-- `for (int j=lo; j<lo+n; j++) acc += get(j);` (cgmf.cpp:165-177, 192-193). -/
def accumulate (get : Int → ℝ) : Nat → Int → ℝ → ℝ
  | 0, _, acc => acc
  | n + 1, j, acc => accumulate get n (j + 1) (fl (acc + get j))

/-- cgmf.cpp:124-201 `recordEvent`. -/
noncomputable def recordEvent (s : Sums ℝ) (e : View ℝ) : Sums ℝ :=
  let keL := fl (s.keL + e.keL)
  let keH := fl (s.keH + e.keH)
  let xeL := fl (s.xeL + e.xeL)
  let xeH := fl (s.xeH + e.xeH)
  let jL := fl (s.jL + e.jL)
  let jH := fl (s.jH + e.jH)
  let nuL := s.nuL + e.nuL
  let nuH := s.nuH + e.nuH
  let nuPre := s.nuPre + e.nuPre
  let ecmL := accumulate fl e.cmN e.nuL 0 s.ecmL
  let elabL := accumulate fl e.labN e.nuL 0 s.elabL
  let ecmH := accumulate fl e.cmN e.nuH e.nuL s.ecmH
  let elabH := accumulate fl e.labN e.nuH e.nuL s.elabH
  let enPre := accumulate fl e.preN e.nuPre 0 s.enPre
  let nugL := s.nugL + e.nugL
  let nugH := s.nugH + e.nugH
  let egL := accumulate fl e.phE e.nugL 0 s.egL
  let egH := accumulate fl e.phE e.nugH e.nugL s.egH
  { aL := s.aL + e.aL, aH := s.aH + e.aH, zL := s.zL + e.zL, zH := s.zH + e.zH,
    nuL := nuL, nuH := nuH, nuPre := nuPre, nuTot := nuL + nuH + nuPre, nugL := nugL, nugH := nugH, nugTot := nugL + nugH,
    keL := keL, keH := keH, tke := fl (keL + keH), xeL := xeL, xeH := xeH, txe := fl (xeL + xeH),
    jL := jL, jH := jH, j := fl (fl (jL + jH) / 2),
    ecmL := ecmL, ecmH := ecmH, elabL := elabL, elabH := elabH, enPre := enPre,
    ecm := fl (fl (ecmL + ecmH) + enPre), eLab := fl (fl (elabL + elabH) + enPre),
    egL := egL, egH := egH, eg := fl (egL + egH) }

/-- The accumulators of a rank after its events (cgmf.cpp:44-55, 90-96). -/
noncomputable def rankSums (evs : List (View ℝ)) : Sums ℝ := evs.foldl (recordEvent fl) Sums.zero

/-- `MPI_Reduce(..., MPI_DOUBLE, MPI_SUM, ...)` (cgmf.cpp:230-309) of the numbers `f r` of all ranks `r`: some order, some grouping. -/
inductive Added {ι : Type} (f : ι → ℝ) : List ι → ℝ → Prop
  | one (r : ι) : Added f [r] (f r)
  | add {rs ss ts : List ι} {a b : ℝ} : Added f rs a → Added f ss b → ts.Perm (rs ++ ss) → Added f ts (fl (a + b))

/-- cgmf.cpp:217-309: every accumulator reduced to rank 0, for ranks `r` with accumulators `part r`. -/
structure Reduced {ι : Type} (part : ι → Sums ℝ) (ranks : List ι) (s : Sums ℝ) : Prop where
  aL : s.aL = (ranks.map fun r => (part r).aL).sum
  aH : s.aH = (ranks.map fun r => (part r).aH).sum
  zL : s.zL = (ranks.map fun r => (part r).zL).sum
  zH : s.zH = (ranks.map fun r => (part r).zH).sum
  nuL : s.nuL = (ranks.map fun r => (part r).nuL).sum
  nuH : s.nuH = (ranks.map fun r => (part r).nuH).sum
  nuPre : s.nuPre = (ranks.map fun r => (part r).nuPre).sum
  nuTot : s.nuTot = (ranks.map fun r => (part r).nuTot).sum
  nugL : s.nugL = (ranks.map fun r => (part r).nugL).sum
  nugH : s.nugH = (ranks.map fun r => (part r).nugH).sum
  nugTot : s.nugTot = (ranks.map fun r => (part r).nugTot).sum
  keL : Added fl (fun r => (part r).keL) ranks s.keL
  keH : Added fl (fun r => (part r).keH) ranks s.keH
  tke : Added fl (fun r => (part r).tke) ranks s.tke
  xeL : Added fl (fun r => (part r).xeL) ranks s.xeL
  xeH : Added fl (fun r => (part r).xeH) ranks s.xeH
  txe : Added fl (fun r => (part r).txe) ranks s.txe
  jL : Added fl (fun r => (part r).jL) ranks s.jL
  jH : Added fl (fun r => (part r).jH) ranks s.jH
  j : Added fl (fun r => (part r).j) ranks s.j
  ecmL : Added fl (fun r => (part r).ecmL) ranks s.ecmL
  ecmH : Added fl (fun r => (part r).ecmH) ranks s.ecmH
  elabL : Added fl (fun r => (part r).elabL) ranks s.elabL
  elabH : Added fl (fun r => (part r).elabH) ranks s.elabH
  enPre : Added fl (fun r => (part r).enPre) ranks s.enPre
  ecm : Added fl (fun r => (part r).ecm) ranks s.ecm
  eLab : Added fl (fun r => (part r).eLab) ranks s.eLab
  egL : Added fl (fun r => (part r).egL) ranks s.egL
  egH : Added fl (fun r => (part r).egH) ranks s.egH
  eg : Added fl (fun r => (part r).eg) ranks s.eg

/-- cgmf.cpp:328-357 on rank 0: the numbers handed to `printf`; `nevents` is the total `np*nevents` (311). -/
noncomputable def summary (s : Sums ℝ) (nevents : Int) : Summary ℝ :=
  let n : ℝ := nevents
  { zL := fl (s.zL / n), aL := fl (s.aL / n), zH := fl (s.zH / n), aH := fl (s.aH / n),
    keL := fl (s.keL / n), keH := fl (s.keH / n), tke := fl (s.tke / n),
    xeL := fl (s.xeL / n), xeH := fl (s.xeH / n), txe := fl (s.txe / n),
    jL := fl (s.jL / n), jH := fl (s.jH / n), j := fl (s.j / n),
    nuL := fl (s.nuL / n), nuH := fl (s.nuH / n), nuPre := fl (s.nuPre / n), nuTot := fl (s.nuTot / n),
    ecmL := fl (s.ecmL / atLeastOne s.nuL), ecmH := fl (s.ecmH / atLeastOne s.nuH),
    ecmPre := fl (s.enPre / atLeastOne s.nuPre), ecmTot := fl (s.ecm / atLeastOne s.nuTot),
    elabL := fl (s.elabL / atLeastOne s.nuL), elabH := fl (s.elabH / atLeastOne s.nuH),
    elabPre := fl (s.enPre / atLeastOne s.nuPre), elabTot := fl (s.eLab / atLeastOne s.nuTot),
    nugL := fl (s.nugL / n), nugH := fl (s.nugH / n), nugTot := fl (s.nugTot / n),
    egL := fl (s.egL / atLeastOne s.nugL), egH := fl (s.egH / atLeastOne s.nugH),
    egTot := fl (s.eg / atLeastOne s.nugTot) }

end

end CGMF.FpRun

import Verif.Model.LevDen

/-!
# Gamma-ray transmission coefficients

Model of libcgmf/src/gtrans.cpp, gdr.cpp, `statSetupGdrParameter` (setup.cpp:364-392) and
`statStoreGammaTransmission` (stattrans.cpp:86-115).  Real arithmetic; an infinite or undefined `double` is `ub`.
-/

namespace CGMF.Gam

noncomputable section

/-- The labels stored in `XL` (gdr.h:21); `none` is the label of a cleared entry. -/
inductive XL where
  | none | E1 | M1 | E2
  deriving DecidableEq

/-- `GDR` (gdr.h:19-54). -/
structure Gdr where
  xl : XL
  energy : ℝ
  width : ℝ
  sigma : ℝ

/-- `gdrProfileLorentzian` (gtrans.cpp:154-158). -/
def profile (eg er w : ℝ) : Res ℝ :=
  if er = eg ∧ eg * w = 0 then .ok 0
  else
    let d := (er * er - eg * eg) * (er * er - eg * eg) + eg * eg * w * w
    if d = 0 then .ub else .ok (eg * w / d)

/-- `gdrTempDependGamma` (gtrans.cpp:144-148). -/
def tempGamma (eg er w t : ℝ) : ℝ :=
  if er = 0 then 0 else w * (eg * eg + 4 * Real.pi * Real.pi * t * t) / (er * er)

/-- `pow(eg,2.0-2.0*l)` (gtrans.cpp:110, 128). -/
def powEg (l : Nat) (eg : ℝ) : Res ℝ := if eg = 0 ∧ 1 < l then .ub else .ok (eg ^ (2 - 2 * (l : ℤ)))

/-- `gdrStandardLorentzian` (gtrans.cpp:105-114). -/
def standard (l : Nat) (eg : ℝ) (g : Gdr) : Res ℝ :=
  (powEg l eg).bind fun q => (profile eg g.energy g.width).bind fun pr =>
    .ok (26 / 10 ^ 8 / (2 * l + 1) * g.sigma * g.width * q * pr)

/-- The temperature of line 125 (gtrans.cpp:125); `a` not positive is taken as undefined. -/
def gdrTemp (a ex : ℝ) : Res ℝ := if ex < 0 then .ok 0 else if a ≤ 0 then .ub else .ok √(ex / a)

/-- `gdrGeneralizedLorentzian` (gtrans.cpp:120-138). -/
def generalized (l : Nat) (eg : ℝ) (g : Gdr) (a ex : ℝ) : Res ℝ :=
  (gdrTemp a ex).bind fun t => (powEg l eg).bind fun q =>
    (profile eg g.energy (if l = 1 then tempGamma eg g.energy g.width t else g.width)).bind fun pr =>
      if l = 1 ∧ g.energy = 0 then .ub
      else .ok (26 / 10 ^ 8 / (2 * l + 1) * g.sigma * g.width * q *
        (pr + (if l = 1 then 7 / 10 * tempGamma 0 g.energy g.width t / (g.energy * g.energy * g.energy) else 0)))

/-- Sum over the entries with label `xl` (gtrans.cpp:86-95). -/
def sumOver (xl : XL) (f : Gdr → Res ℝ) : List Gdr → Res ℝ
  | [] => .ok 0
  | g :: gs => if g.xl = xl then (f g).bind fun x => (sumOver xl f gs).bind fun y => .ok (x + y) else sumOver xl f gs

/-- `GammaProfile` (cgm.h). -/
inductive Shape where
  | SL | GL

/-- `gdrGammaTransmission` (gtrans.cpp:74-99). -/
def transmission (c : Shape) (l : Nat) (eg : ℝ) (xl : XL) (a ex : ℝ) (gs : List Gdr) : Res ℝ :=
  (sumOver xl (fun g => match c with
    | .SL => standard l eg g
    | .GL => generalized l eg g a ex) gs).bind fun s =>
    .ok (s * (2 * Real.pi * eg ^ (2 * l + 1) * (314035 / 100000)))

/-- The three coefficients the code asks for (stattrans.cpp:105-107, gampop.cpp:53-55). -/
def coefficient (gs : List Gdr) (xl : XL) (eg a ex : ℝ) : Res ℝ :=
  match xl with
  | .E1 => transmission .GL 1 eg .E1 a ex gs
  | .M1 => transmission .SL 1 eg .M1 0 0 gs
  | .E2 => transmission .SL 2 eg .E2 0 0 gs
  | .none => .ok 0

/-- The energy for the temperature (stattrans.cpp:103). -/
def exOf (sn eg : ℝ) : ℝ := if eg ≤ sn then sn - eg else 0

/-- `tg[xl][k1]` for the parent in bin 0 (stattrans.cpp:101-107); `sn` is the separation energy of lines 95-99, `a` is
`n->ldp.a`, `exc` the excitation energies of the bins. -/
def contGamma (gs : List Gdr) (sn a : ℝ) (exc : Nat → ℝ) (xl : XL) (k1 : Nat) : Res ℝ :=
  coefficient gs xl (exc 0 - exc k1) a (exOf sn (exc 0 - exc k1))

/-- The coefficient for a transition to a level of energy `lev` (gampop.cpp:48-55); `a` is the density parameter of
line 51. -/
def levGamma (gs : List Gdr) (e0 a lev : ℝ) (xl : XL) : Res ℝ := coefficient gs xl (e0 - lev) a lev

/-! ## Parameters -/

/-- `gdrDArigo` (gdr.cpp:24-31). -/
def dArigo (mass beta : ℝ) : Gdr :=
  let e := (49336 / 1000 + 734 / 100 * beta) * mass ^ (-(2409 / 10000) : ℝ)
  ⟨.E1, e, 3 / 10 * e, 106 / 10 * mass / (3 / 10 * e)⟩

/-- `gdrDArigoDoubleHump0` (gdr.cpp:33-40). -/
def dArigo0 (mass beta : ℝ) : Gdr :=
  let e := 50 * mass ^ (-(232 / 1000) : ℝ) * Real.exp (-(946 / 1000) * beta)
  let w := (282 / 1000 - 263 / 1000 * beta) * e
  ⟨.E1, e, w, 348 / 100 * mass / w⟩

/-- `gdrDArigoDoubleHump1` (gdr.cpp:42-49). -/
def dArigo1 (mass beta : ℝ) : Gdr :=
  let e := 50 * mass ^ (-(232 / 1000) : ℝ)
  let w := (35 / 100 - 14 / 100 * beta) * e
  ⟨.E1, e, w, 826 / 100 * mass / w⟩

/-- `gdrM1` (gdr.cpp:55-62). -/
def m1 (mass : ℝ) : Gdr := ⟨.M1, 41 / mass ^ (1 / 3 : ℝ), 4, 1⟩

/-- `gdrE2` (gdr.cpp:68-76). -/
def e2 (z mass : ℝ) : Gdr :=
  let a3 := 1 / mass ^ (1 / 3 : ℝ)
  let e := 63 * a3
  let w := 611 / 100 - 12 / 1000 * mass
  ⟨.E2, e, w, 15 / 100000 * z * z * e * e * a3 / w⟩

/-- First entry with label M1, or entry 0 (gtrans.cpp:47-55). -/
def m1Index (gs : List Gdr) : Nat := (gs.findIdx? fun g => decide (g.xl = .M1)).getD 0

/-- `gdrM1norm` (gtrans.cpp:35-56) on the filled entries; cleared entries carry no label and add nothing. -/
def m1norm (mass a : ℝ) (gs : List Gdr) : Res (List Gdr) :=
  (sumOver .E1 (fun g => generalized 1 7 g a 0) gs).bind fun fe1 =>
    match gs.find? fun g => decide (g.xl = .M1) with
    | none => .ub
    | some g => (standard 1 7 g).bind fun fm1 =>
      if fm1 = 0 then .ub
      else .ok (gs.modify (m1Index gs) fun g => { g with sigma := 1701 / 100 * mass ^ (-(878 / 1000) : ℝ) * fe1 / fm1 })

/-- `statSetupGdrParameter` (setup.cpp:364-392): the entries saved by `gdrParameterSave`. -/
def setupGdr (z mass a beta : ℝ) : Res (List Gdr) :=
  m1norm mass a ((if beta = 0 then [dArigo mass beta] else [dArigo0 mass beta, dArigo1 mass beta]) ++
    [m1 mass, e2 z mass])

end

end CGMF.Gam

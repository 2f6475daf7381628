import Verif.Model.Rnd
import Mathlib.Algebra.Order.Floor.Ring

/-!
# Wahl's charge model

libcgmf/src/FissionFragments.cpp, class `ZDistribution` (3422-4046), with the method "NewCGMF" that the header
fixes (libcgmf/include/FissionFragments.h:400). In this method each region routine still makes the assignments of
the legacy method first and then those of the current one, so the arrays can hold legacy values; both are
modelled. `exp` is a parameter; the coefficient vectors are a parameter (`Tab`). The array size is the length of
the list of entries (`NUMA`). Divisions that the code does not guard are `ub` when the divisor is zero. The
conversion of the real bounds to `int` is assumed not to overflow.
-/

namespace CGMF.Wahl

variable {K : Type} [Field K] [LinearOrder K] [FloorRing K]

/-- The fifteen parameters (`sigz140` ... `FnSLW`), of any type: values or coefficient vectors. -/
structure Zp (α : Type) where
  sigz140 : α
  delz140 : α
  fz140 : α
  fn140 : α
  sigzSL : α
  delzSL : α
  fzSL : α
  fnSL : α
  sl50 : α
  sigz50 : α
  delzmax : α
  sigzSLW : α
  delzSLW : α
  fzSLW : α
  fnSLW : α
  deriving DecidableEq, Repr

/-- Combine two sets field by field. -/
def Zp.zip {α β γ : Type} (f : α → β → γ) (x : Zp α) (y : Zp β) : Zp γ :=
  ⟨f x.sigz140 y.sigz140, f x.delz140 y.delz140, f x.fz140 y.fz140, f x.fn140 y.fn140, f x.sigzSL y.sigzSL,
    f x.delzSL y.delzSL, f x.fzSL y.fzSL, f x.fnSL y.fnSL, f x.sl50 y.sl50, f x.sigz50 y.sigz50,
    f x.delzmax y.delzmax, f x.sigzSLW y.sigzSLW, f x.delzSLW y.delzSLW, f x.fzSLW y.fzSLW, f x.fnSLW y.fnSLW⟩

/-- Apply to every field. -/
def Zp.map {α β : Type} (f : α → β) (x : Zp α) : Zp β := x.zip (fun a (_ : α) => f a) x

/-- `WahlEq17` (3655-3673). -/
def eq17 (zf af : Int) (pe : K) : List K → K
  | [c0, c1, c2, c3, c4] =>
      c0 + c1 * ((zf : K) - 92) + c2 * ((af : K) - 236) + c3 * (pe - 6551 / 1000) + c4 * ((af : K) - 236) * ((af : K) - 236)
  | _ => 0

/-- `WahlEq19` (3683-3703). -/
def eq19 (exp : K → K) (zf : Int) (pe : K) : List K → K
  | [c0, c1, c2, c3, c4] =>
      let p1 := c0 + c2 * ((zf : K) - 92)
      let p2 := c1 + c3 * ((zf : K) - 92)
      p1 + (p2 - p1) * (1 - exp (-c4 * pe))
  | _ => 0

/-- The coefficient vectors of the low- and high-energy regions (3441-3490). -/
structure Tab (K : Type) where
  low : Zp (List K)
  high : Zp (List K)

/-- Low-energy values. -/
def Tab.lowAt (t : Tab K) (zf af : Int) (pe : K) : Zp K := t.low.map (eq17 zf af pe)

/-- High-energy values (3602-3616). -/
def Tab.highAt (t : Tab K) (exp : K → K) (zf : Int) (pe : K) : Zp K := t.high.map (eq19 exp zf pe)

/-- High-energy values as used in the interpolation (3548-3562): `FnSL_H` is computed with equation 17. -/
def Tab.highMid (t : Tab K) (exp : K → K) (zf af : Int) (pe : K) : Zp K :=
  { t.highAt exp zf pe with fnSL := eq17 zf af pe t.high.fnSL }

/-- `ComputeZpParams` (3503-3635), method "NewCGMF": `PE_L = 8`, `PE_H = 20`; the three `if`s follow one
another, so at the two limits the later one decides. -/
def params (t : Tab K) (exp : K → K) (zf af : Int) (pe : K) : Zp K :=
  if 20 ≤ pe then t.highAt exp zf pe
  else if 8 ≤ pe then
    let frh := (pe - 8) / 12
    let frl := 1 - frh
    Zp.zip (fun a b => frl * a + frh * b) (t.lowAt zf af 8) (t.highMid exp zf af 20)
  else t.lowAt zf af pe

/-- The boundaries of the mass regions. -/
structure Bounds (K : Type) where
  b1 : K
  b2 : K
  b3 : K
  ba : K
  bb : K
  b4 : K
  b5 : K
  b6 : K
  i1 : Int
  i2 : Int
  i3 : Int
  ia : Int
  ib : Int
  i4 : Int
  i5 : Int
  i6 : Int
  deriving DecidableEq, Repr

/-- C++ conversion to `int`: truncation towards zero. -/
def toInt (x : K) : Int := if 0 ≤ x then ⌊x⌋ else ⌈x⌉

/-- Lines 3720-3728: `F1` limited to `[0, 1]`. -/
def f1 (af : Int) : K :=
  let f : K := (250 - (af : K)) / 14
  if f < 0 then 0 else if 1 < f then 1 else f

/-- `ComputeMassBounds` (3715-3777). The test of the order of the bounds only prints a warning. -/
def bounds (p : Zp K) (zf af : Int) : Res (Bounds K) :=
  if zf = 0 ∨ p.sl50 = 0 ∨ p.sl50 + p.delzSL = 0 then .ub
  else
    let a : K := af
    let ak1 := 50 * (a / zf) - p.delzmax / p.sl50
    let ak2 := (50 - p.delzmax) * (a / zf)
    let am := f1 af * ak1 + (1 - f1 af) * ak2
    let b2 : K := 77 + 36 / 1000 * (a - 236)
    let b4 := (p.delzmax - p.delz140 + am * p.sl50 + 140 * p.delzSL) / (p.sl50 + p.delzSL)
    let i2 : Int := ⌊(77 : K) + 36 / 1000 * (a - 236) + 1 / 2⌋
    let i4 : Int := ⌊b4 + 1 / 2⌋
    .ok ⟨70, b2, a - b4, a - am, am, b4, a - b2, a - 70,
      70, i2, af - i4, toInt (a - am + 1 / 2), toInt (am + 1 / 2), i4, af - i2, af - 70⟩

/-- One entry of the arrays `delz`, `sigz`, `Fz`, `Fn`. -/
structure Ent (K : Type) where
  delz : K
  sigz : K
  fz : K
  fn : K
  deriving DecidableEq, Repr

/-- Everything the region routines use. -/
structure Cfg (K : Type) where
  p : Zp K
  b : Bounds K
  af : Int
  sigzB5 : K
  delzB5 : K

/-- Assignment of the entry of mass `A`, if any. -/
def put (s : List (Ent K)) (A : Int) : Option (Ent K) → Res (List (Ent K))
  | none => .ok s
  | some e => writeAt s A e

/-- `PeakRegion`, legacy assignments (3799-3812). -/
def peakOld (c : Cfg K) (A : Int) : Option (Ent K) :=
  if c.b.i2 ≤ A ∧ A ≤ c.b.i3 then
    let x : K := ((A - (c.af - 140) : Int) : K)
    some ⟨-c.p.delz140 + c.p.delzSL * x, c.p.sigz140 - c.p.sigzSL * x, c.p.fz140 - c.p.fzSL * x, c.p.fn140 - c.p.fzSL * x⟩
  else if c.b.i4 ≤ A ∧ A ≤ c.b.i5 then
    let x : K := (A : K) - 140
    some ⟨c.p.delz140 + c.p.delzSL * x, c.p.sigz140 + c.p.sigzSL * x, c.p.fz140 + c.p.fzSL * x, c.p.fn140 + c.p.fzSL * x⟩
  else none

/-- `PeakRegion`, current assignments (3815-3826). -/
def peakNew (c : Cfg K) (A : Int) : Option (Ent K) :=
  let a : K := A
  if c.b.b2 ≤ a ∧ a ≤ c.b.b3 then
    let x : K := (c.af : K) - a - 140
    some ⟨-(c.p.delz140 + c.p.delzSL * x), c.p.sigz140 + c.p.sigzSL * x, c.p.fz140 + c.p.fzSL * x, c.p.fn140 + c.p.fnSL * x⟩
  else if c.b.b4 ≤ a ∧ a ≤ c.b.b5 then
    let x : K := a - 140
    some ⟨c.p.delz140 + c.p.delzSL * x, c.p.sigz140 + c.p.sigzSL * x, c.p.fz140 + c.p.fzSL * x, c.p.fn140 + c.p.fnSL * x⟩
  else none

/-- `SymmetryRegion`, legacy assignments (3846-3862); they read other entries. -/
def symOld (c : Cfg K) (s : List (Ent K)) (A : Int) : Res (Option (Ent K)) :=
  if c.b.i3 < A ∧ A ≤ c.b.ia then
    (readAt s c.b.i3).bind fun e => .ok (some ⟨e.delz - c.p.sl50 * ((A - c.b.i3 : Int) : K), c.p.sigz50, 1, 1⟩)
  else if c.b.ia < A ∧ A < c.b.ib then
    (readAt s c.b.ia).bind fun e => .ok (some ⟨e.delz + ((A - c.b.ia : Int) : K) * (2 * e.delz) / ((c.b.ia - c.b.ib : Int) : K),
      c.p.sigz140 - c.p.sigzSL * ((140 - c.b.ib : Int) : K), 1, 1⟩)
  else if c.b.ib ≤ A ∧ A < c.b.i4 then
    (readAt s c.b.i4).bind fun e => .ok (some ⟨e.delz + c.p.sl50 * ((c.b.i4 - A : Int) : K), c.p.sigz50, 1, 1⟩)
  else .ok none

/-- `SymmetryRegion`, current assignments (3865-3880). -/
def symNew (c : Cfg K) (A : Int) : Res (Option (Ent K)) :=
  let a : K := A
  if c.b.b3 ≤ a ∧ a ≤ c.b.ba then .ok (some ⟨-c.p.delzmax - c.p.sl50 * (a - c.b.ba), c.p.sigz50, 1, 1⟩)
  else if c.b.ba ≤ a ∧ a ≤ c.b.bb then
    if c.b.bb = c.b.ba then .ub
    else .ok (some ⟨-c.p.delzmax + (a - c.b.ba) * 2 * c.p.delzmax / (c.b.bb - c.b.ba),
      c.p.sigz140 - c.p.sigzSL * (140 - c.b.bb), 1, 1⟩)
  else if c.b.bb ≤ a ∧ a ≤ c.b.b4 then .ok (some ⟨c.p.delzmax - c.p.sl50 * (a - c.b.bb), c.p.sigz50, 1, 1⟩)
  else .ok none

/-- `WingRegion`, legacy assignments (3902-3912). -/
def wingOld (c : Cfg K) (s : List (Ent K)) (A : Int) : Res (Option (Ent K)) :=
  if c.b.i1 < A ∧ A < c.b.i2 then
    (readAt s c.b.i2).bind fun e2 => (readAt s c.b.i5).bind fun e5 =>
      let x : K := ((c.b.i2 - A : Int) : K)
      .ok (some ⟨e2.delz + c.p.delzSLW * x, e5.sigz + c.p.sigzSLW * x, c.p.fz140 + c.p.fzSLW * x, c.p.fn140 + c.p.fnSLW * x⟩)
  else if c.b.i5 < A ∧ A < c.b.i6 then
    (readAt s c.b.i5).bind fun e5 =>
      let x : K := ((A - c.b.i5 : Int) : K)
      .ok (some ⟨e5.delz - c.p.delzSLW * x, e5.sigz + c.p.sigzSLW * x, c.p.fz140 + c.p.fzSLW * x, c.p.fn140 + c.p.fnSLW * x⟩)
  else .ok none

/-- `WingRegion`, current assignments (3915-3926). -/
def wingNew (c : Cfg K) (A : Int) : Option (Ent K) :=
  let a : K := A
  if c.b.b1 ≤ a ∧ a ≤ c.b.b2 then
    some ⟨-c.delzB5 + c.p.delzSLW * ((c.af : K) - a - c.b.b5), c.sigzB5 + c.p.sigzSLW * (c.b.b2 - a),
      c.p.fz140 + c.p.fzSLW * (c.b.b2 - a), c.p.fn140 + c.p.fnSLW * (c.b.b2 - a)⟩
  else if c.b.b5 ≤ a ∧ a ≤ c.b.b6 then
    some ⟨c.delzB5 - c.p.delzSLW * (a - c.b.b5), c.sigzB5 + c.p.sigzSLW * (a - c.b.b5),
      c.p.fz140 + c.p.fzSLW * (a - c.b.b5), c.p.fn140 + c.p.fnSLW * (a - c.b.b5)⟩
  else none

/-- `FarWingRegion`, legacy assignments (3947-3957). -/
def farOld (c : Cfg K) (s : List (Ent K)) (A : Int) : Res (Option (Ent K)) :=
  if A ≤ c.b.i1 then
    (readAt s c.b.i2).bind fun e2 => (readAt s c.b.i5).bind fun e5 => .ok (some ⟨e2.delz, e5.sigz, c.p.fz140, c.p.fn140⟩)
  else if c.b.i6 ≤ A then
    (readAt s c.b.i5).bind fun e5 => .ok (some ⟨e5.delz, e5.sigz, c.p.fz140, c.p.fn140⟩)
  else .ok none

/-- `FarWingRegion`, current assignments (3960-3971). -/
def farNew (c : Cfg K) (A : Int) : Option (Ent K) :=
  let a : K := A
  if a ≤ c.b.b1 then some ⟨-c.delzB5, c.sigzB5, c.p.fz140, c.p.fn140⟩
  else if c.b.b6 ≤ a then some ⟨c.delzB5, c.sigzB5, c.p.fz140, c.p.fn140⟩
  else none

/-- The body of one region loop: legacy assignment, then current assignment. -/
def region (old : List (Ent K) → Int → Res (Option (Ent K))) (new : Int → Res (Option (Ent K)))
    (s : List (Ent K)) (A : Int) : Res (List (Ent K)) :=
  (old s A).bind fun o => (put s A o).bind fun s => (new A).bind fun n => put s A n

/-- A loop over `m` masses from `A`. -/
def loop (f : List (Ent K) → Int → Res (List (Ent K))) : Nat → Int → List (Ent K) → Res (List (Ent K))
  | 0, _, s => .ok s
  | m + 1, A, s => (f s A).bind fun s => loop f m (A + 1) s

/-- The four region loops in their order (4003-4006). -/
def regions (c : Cfg K) (m : Nat) (lo : Int) (s : List (Ent K)) : Res (List (Ent K)) :=
  (loop (region (fun _ A => .ok (peakOld c A)) (fun A => .ok (peakNew c A))) m lo s).bind fun s =>
    (loop (region (symOld c) (symNew c)) m lo s).bind fun s =>
      (loop (region (wingOld c) (fun A => .ok (wingNew c A))) m lo s).bind fun s =>
        loop (region (farOld c) (fun A => .ok (farNew c A))) m lo s

/-- Lines 3993-4000. -/
def config (p : Zp K) (b : Bounds K) (af : Int) : Cfg K :=
  let p := if p.sigz50 ≤ 0 then { p with sigz50 := p.sigz140 } else p
  ⟨p, b, af, p.sigz140 + p.sigzSL * (b.b5 - 140), p.delz140 + p.delzSL * (b.b5 - 140)⟩

/-- The output arrays and the charge limits. -/
structure Charge (K : Type) where
  z0 : List K
  sz0 : List K
  fzz0 : List K
  fnz0 : List K
  zmin : Int
  zmax : Int

/-- Lines 4010-4019 over the entries of `[lo, hi]`; the arrays are zero elsewhere. -/
def outZ (lo hi : Int) (s : List (Ent K)) (f : Ent K → Int → K) : List K :=
  s.mapIdx fun i e => if lo ≤ (i : Int) ∧ (i : Int) ≤ hi then f e i else 0

/-- `ComputeZDistribution` (3985-4038) of a freshly constructed object (arrays of zeros, 3424-3433). -/
def compute (t : Tab K) (exp : K → K) (numa : Nat) (zf af : Int) (pe : K) (lo hi dZ : Int) : Res (Charge K) :=
  (bounds (params t exp zf af pe) zf af).bind fun b =>
    if af = 0 then .ub
    else
      (regions (config (params t exp zf af pe) b af) (hi - lo + 1).toNat lo (List.replicate numa ⟨0, 0, 0, 0⟩)).bind fun s =>
        let z0 := outZ lo hi s (fun e a => (zf : K) / af * a + e.delz)
        (readAt z0 lo).bind fun zl => (readAt z0 hi).bind fun zh =>
          .ok ⟨z0, outZ lo hi s (fun e _ => e.sigz), outZ lo hi s (fun e _ => e.fz),
            outZ lo hi s (fun e _ => e.fn), ⌊zl + 1 / 2⌋ - dZ, ⌊zh + 1 / 2⌋ + dZ⟩

end CGMF.Wahl

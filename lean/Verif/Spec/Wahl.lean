import Verif.Model.Wahl

/-!
# Wahl's charge model as published (equations 11-14), in terms of the heavier fragment of a pair
-/

namespace CGMF.Spec

open CGMF.Wahl

variable {K : Type} [Field K] [LinearOrder K] [FloorRing K]

/-- The order of the boundaries that the code tests (and only warns about). -/
structure Sorted (b : Bounds K) : Prop where
  h12 : b.b1 < b.b2
  h23 : b.b2 < b.b3
  h3a : b.b3 < b.ba
  hab : b.ba < b.bb
  hb4 : b.bb < b.b4
  h45 : b.b4 < b.b5
  h56 : b.b5 < b.b6

/-- Displacement of the charge, width and odd-even factors of the heavier fragment, of mass `h`. -/
def heavy (p : Zp K) (bb b4 b5 b6 af h : K) : Ent K :=
  if b6 ≤ h then ⟨p.delz140 + p.delzSL * (b5 - 140), p.sigz140 + p.sigzSL * (b5 - 140), p.fz140, p.fn140⟩
  else if b5 ≤ h then
    ⟨p.delz140 + p.delzSL * (b5 - 140) - p.delzSLW * (h - b5), p.sigz140 + p.sigzSL * (b5 - 140) + p.sigzSLW * (h - b5),
      p.fz140 + p.fzSLW * (h - b5), p.fn140 + p.fnSLW * (h - b5)⟩
  else if b4 < h then
    ⟨p.delz140 + p.delzSL * (h - 140), p.sigz140 + p.sigzSL * (h - 140), p.fz140 + p.fzSL * (h - 140),
      p.fn140 + p.fnSL * (h - 140)⟩
  else if bb ≤ h then ⟨p.delzmax - p.sl50 * (h - bb), p.sigz50, 1, 1⟩
  else ⟨p.delzmax * (2 * h - af) / (2 * bb - af), p.sigz140 - p.sigzSL * (140 - bb), 1, 1⟩

/-- The entry of mass `a`: that of the heavier fragment of its pair, with the sign of the displacement changed for
the lighter one. -/
def wahl (p : Zp K) (bb b4 b5 b6 af a : K) : Ent K :=
  if af ≤ 2 * a then heavy p bb b4 b5 b6 af a
  else { heavy p bb b4 b5 b6 af (af - a) with delz := -(heavy p bb b4 b5 b6 af (af - a)).delz }

end CGMF.Spec

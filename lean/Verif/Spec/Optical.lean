import Verif.Model.Optical

/-!
# Optical model: vocabulary of the statements
-/

namespace CGMF.OptSpec

open CGMF.Opt

variable {K : Type} [Field K] [LinearOrder K]

/-- Complex product. -/
def mul (a b : Cx K) : Cx K := ⟨a.re * b.re - a.im * b.im, a.re * b.im + a.im * b.re⟩

/-- Complex difference. -/
def sub (a b : Cx K) : Cx K := ⟨a.re - b.re, a.im - b.im⟩

/-- Imaginary part of `conj a * b`: the probability flux of a wave function with values `a` and `b` at two
neighbouring points, up to a positive factor. -/
def flux (a b : Cx K) : K := a.re * b.im - a.im * b.re

/-- Square of the modulus. -/
def normSq (a : Cx K) : K := a.re ^ 2 + a.im ^ 2

/-- The tables of a potential on a mesh of `N` points with spacing `h`: at `r = i h` the central
potential is `V i + i W i` and the spin-orbit potential `U i + i X i` (already multiplied by `2μ/ħ²`). -/
structure OnMesh (pot : Pot K) (N : Nat) (h : K) (V W U X : Nat → K) : Prop where
  radi : pot.radi = (List.range N).map fun i : Nat => ((i : K) * h) ^ 2
  mean : pot.mean = (List.range N).map fun i : Nat => ⟨V i, W i⟩
  so : pot.so = (List.range N).map fun i : Nat => ⟨U i, X i⟩

/-- Spin-orbit factor `j(j+1) - l(l+1) - s(s+1)`. -/
def soFactor (l s j : K) : K := j * (j + 1) - l * (l + 1) - s * (s + 1)

/-- `q(r)` of the radial equation `ψ'' = q ψ`: centrifugal term minus wave number squared minus
potential. -/
def radialQ (h k2 l s j : K) (V W U X : Nat → K) (i : Nat) : Cx K :=
  ⟨l * (l + 1) / ((i : K) * h) ^ 2 - k2 - V i - soFactor l s j * U i, -(W i) - soFactor l s j * X i⟩

/-- Numerov's auxiliary function `(1 - h² q/12) ψ`. -/
def aux (h : K) (q ψ : Cx K) : Cx K := mul ⟨1 - h ^ 2 / 12 * q.re, -(h ^ 2 / 12 * q.im)⟩ ψ

/-- Seven-point central difference for the first derivative. -/
def sevenPoint (h a b c e f g : K) : K := (g - a + 9 * (b - f) + 45 * (e - c)) / (60 * h)

/-- `ψ` and `dψ` are the value of the tabulated wave function three points before its end `m`, and its
seven-point derivative there. -/
structure AtMatch (m : Nat) (h : K) (w : List (Cx K)) (ψ dψ : Cx K) : Prop where
  six : 6 ≤ m
  meshNe : h ≠ 0
  val : w[m - 3]? = some ψ
  der : ∃ a b c e f g : Cx K, w[m - 6]? = some a ∧ w[m - 5]? = some b ∧ w[m - 4]? = some c ∧
    w[m - 2]? = some e ∧ w[m - 1]? = some f ∧ w[m]? = some g ∧
    dψ = ⟨sevenPoint h a.re b.re c.re e.re f.re g.re, sevenPoint h a.im b.im c.im e.im f.im g.im⟩

/-- The outer wave functions of order `l` at the matching radius and their derivatives. -/
structure Outer (e : Ext K) (l : Nat) (g f dg df : K) : Prop where
  G : e.G[l]? = some g
  F : e.F[l]? = some f
  dG : e.dG[l]? = some dg
  dF : e.dF[l]? = some df

/-- Penetrability and shift at the matching radius (`ρ` is the radius times the wave number). -/
def penetrability (rho g f : K) : K := rho / (g ^ 2 + f ^ 2)
def shift (rho g f dg df : K) : K := rho * (g * dg + f * df) / (g ^ 2 + f ^ 2)

/-- `Σ_l (l+1) T₊(l) + l T₋(l)` over a table of coefficients. -/
def partialSum (ts : List (K × K)) : K :=
  ((List.range ts.length).map fun l : Nat =>
    ((l : K) + 1) * (ts.getD l (0, 0)).1 + (l : K) * (ts.getD l (0, 0)).2).sum

end CGMF.OptSpec

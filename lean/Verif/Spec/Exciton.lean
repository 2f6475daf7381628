import Verif.Model.Exciton

/-!
# Exciton model: vocabulary of the statements
-/

namespace CGMF.ExcSpec

open CGMF.Exc

variable {K : Type} [Field K] [LinearOrder K]

/-- A table over the 6 by 6 configurations, zero outside. -/
def at6 (f : Nat → Nat → K) (a b : Int) : K :=
  if 0 ≤ a ∧ a < 6 ∧ 0 ≤ b ∧ b < 6 then f a.toNat b.toNat else 0

/-- Right-hand side of the two-component master equation for the configuration with `i` proton and `j`
neutron pairs: creation of a proton pair from `(i-1,j)`, of a neutron pair from `(i,j-1)`, and the
configurations `(i-1,j+1)` and `(i+1,j-1)`, themselves reached by creating a pair, through the conversion of a
pair. -/
def arrivals (r : Rates K) (P : Nat → Nat → K) (i j : Int) : K :=
  at6 (fun a b => P a b * r.tzp a b * r.t1 a b) (i - 1) j
  + at6 (fun a b => P a b * r.tnp a b * r.t1 a b) i (j - 1)
  + at6 (fun a b => r.tn0 a b * r.t1 a b) (i - 1) (j + 1)
    * (at6 (fun a b => P a b * r.tzp a b * r.t2 a b) (i - 2) (j + 1)
      + at6 (fun a b => P a b * r.tnp a b * r.t2 a b) (i - 1) j)
  + at6 (fun a b => r.tz0 a b * r.t1 a b) (i + 1) (j - 1)
    * (at6 (fun a b => P a b * r.tnp a b * r.t2 a b) (i + 1) (j - 2)
      + at6 (fun a b => P a b * r.tzp a b * r.t2 a b) i (j - 1))

/-- `P` solves the master equation with the system starting in `(0,0)`. -/
def Balanced (r : Rates K) (P : Nat → Nat → K) : Prop :=
  P 0 0 = 1 ∧ ∀ i j : Nat, i < 6 → j < 6 → (i, j) ≠ (0, 0) → P i j = arrivals r P i j

/-- No rate and no lifetime of the 36 configurations is negative. -/
structure NonNeg (r : Rates K) : Prop where
  t1 : ∀ i j, i < 6 → j < 6 → 0 ≤ r.t1 i j
  t2 : ∀ i j, i < 6 → j < 6 → 0 ≤ r.t2 i j
  tzp : ∀ i j, i < 6 → j < 6 → 0 ≤ r.tzp i j
  tnp : ∀ i j, i < 6 → j < 6 → 0 ≤ r.tnp i j
  tz0 : ∀ i j, i < 6 → j < 6 → 0 ≤ r.tz0 i j
  tn0 : ∀ i j, i < 6 → j < 6 → 0 ≤ r.tn0 i j

/-- What is used of `exp` and `pow`. -/
structure LibM (F : Fns K) : Prop where
  exp_pos : ∀ x, 0 < F.exp x
  exp_zero : F.exp 0 = 1
  pow_nonneg : ∀ x y, 0 ≤ x → 0 ≤ F.pow x y
  pow_le_one : ∀ x y, 0 ≤ x → x ≤ 1 → 0 ≤ y → F.pow x y ≤ 1
  zero_pow : ∀ y, 0 < y → F.pow 0 y = 0

/-- A configuration within the 31 entries of the table of factorials. -/
def InTable (e : Exconf) : Prop := e.zp ≤ 30 ∧ e.zh + e.nh ≤ 30 ∧ e.np ≤ 30 ∧ e.zp + e.zh + e.np + e.nh ≤ 31

/-- `q` holds the composite system: its densities come from the state density of the model, with pairing
correction `pc`, its total density is that of the configuration `(i,j)`, and the squared matrix elements are not
negative. -/
structure Composite (F : Fns K) (pc : Int → K → K) (spd : SPdens K) (E : K) (q : Preeq K) (i j : Nat) : Prop where
  total : q.exTotal = E
  omega : ∀ x e, InTable e → stateDensity F pc spd x e = .ok (q.omega x e)
  pauli : ∀ e, q.pauliE e = pauli spd.gz spd.gn e
  omegaTotal : stateDensity F pc spd E (confAt i j) = .ok q.omegaTotal
  czz : 0 ≤ q.czz
  cnn : 0 ≤ q.cnn
  czn : 0 ≤ q.czn
  cnz : 0 ≤ q.cnz

end CGMF.ExcSpec

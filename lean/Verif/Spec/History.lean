import Mathlib.Algebra.Order.Field.Rat
import Mathlib.Algebra.Order.AbsoluteValue.Basic
import Verif.Model.Printer
import Verif.Model.Parser

/-!
# What it means that a history file carries the events

Contents of events as plain lists of particles, the relation "these getters show this content", and
the relation "this is what a faithful reader returns", given by error bounds only (nothing here
mentions how numbers are printed or parsed).
-/

namespace CGMF.Spec

open CGMF.Printer CGMF.Parser

/-- `y` is `x` rounded to `d` decimals. -/
def Rounded (d : Nat) (x y : ℚ) : Prop := |y - x| ≤ 1 / 2 / 10 ^ d ∧ ∃ k : Int, y = k / 10 ^ d

/-- `y` is `x` to six significant digits. -/
def Sig6 (x y : ℚ) : Prop := |y - x| ≤ |x| * (5 / 1000000)

/-- A particle: direction cosines and energy. -/
structure Particle where
  u : ℚ
  v : ℚ
  w : ℚ
  e : ℚ

/-- A fragment with the particles it emits. -/
structure FragC where
  a : Int
  z : Int
  xe : ℚ
  j : ℚ
  p : Int
  ke : ℚ
  kePost : ℚ
  pre : ℚ × ℚ × ℚ
  post : ℚ × ℚ × ℚ
  /-- neutrons, centre-of-mass frame and laboratory frame -/
  neutrons : List (Particle × Particle)
  /-- photons with their emission time -/
  photons : List (Particle × ℚ)

/-- A fission event. -/
structure EvC where
  light : FragC
  heavy : FragC
  pren : List Particle

/-- The indexed getters return the particles of the list. -/
def GetShows (g : Getters) (l : List Particle) : Prop :=
  ∀ (i : Nat) (h : i < l.length),
    g.u i = l[i].u ∧ g.v i = l[i].v ∧ g.w i = l[i].w ∧ g.e i = l[i].e

/-- The scalar getters return the fragment's data. -/
def FragShows (f : PFrag) (c : FragC) : Prop :=
  f.a = c.a ∧ f.z = c.z ∧ f.xe = c.xe ∧ f.j = c.j ∧ f.p = c.p ∧ f.ke = c.ke ∧ f.kePost = c.kePost ∧
  f.pre = c.pre ∧ f.post = c.post ∧ f.nu = c.neutrons.length ∧ f.nug = c.photons.length

/-- The API view of an event shows its content: lists are light fragment first, then heavy. -/
def Shows (v : PView) (c : EvC) : Prop :=
  FragShows v.light c.light ∧ FragShows v.heavy c.heavy ∧ v.nuPre = c.pren.length ∧
  GetShows v.cmN ((c.light.neutrons ++ c.heavy.neutrons).map Prod.fst) ∧
  GetShows v.labN ((c.light.neutrons ++ c.heavy.neutrons).map Prod.snd) ∧
  GetShows v.phot ((c.light.photons ++ c.heavy.photons).map Prod.fst) ∧
  (∀ (i : Nat) (h : i < (c.light.photons ++ c.heavy.photons).length),
    v.age i = ((c.light.photons ++ c.heavy.photons)[i]).2) ∧
  GetShows v.preN c.pren

/-- A particle read back. -/
def ReadsP (x : Particle) (y : Vec4) : Prop :=
  Rounded 3 x.u y.u ∧ Rounded 3 x.v y.v ∧ Rounded 3 x.w y.w ∧ Rounded 3 x.e y.e

/-- A momentum vector read back. -/
def Reads3 (x y : ℚ × ℚ × ℚ) : Prop :=
  Rounded 3 x.1 y.1 ∧ Rounded 3 x.2.1 y.2.1 ∧ Rounded 3 x.2.2 y.2.2

/-- A fragment read back from a file written with coincidence window `w`: emission times are
present exactly if `w < 0`. -/
def ReadsFrag (w : ℚ) (c : FragC) (r : PyFrag) : Prop :=
  r.a = c.a ∧ r.z = c.z ∧ Rounded 3 c.xe r.xe ∧ Rounded 1 c.j r.j ∧ r.p = c.p ∧
  Rounded 3 c.ke r.ke ∧ Rounded 3 c.kePost r.kePost ∧
  r.nn = c.neutrons.length ∧ r.ng = c.photons.length ∧
  Reads3 c.pre r.pre ∧ Reads3 c.post r.post ∧
  List.Forall₂ ReadsP (c.neutrons.map Prod.fst) r.cm ∧
  List.Forall₂ ReadsP (c.neutrons.map Prod.snd) r.lab ∧
  List.Forall₂ ReadsP (c.photons.map Prod.fst) r.phot ∧
  (w < 0 → List.Forall₂ Sig6 (c.photons.map Prod.snd) r.ages) ∧
  (¬ w < 0 → r.ages = List.replicate c.photons.length 0)

/-- The heavy-fragment row also carries the pre-fission neutrons; without any, one dummy entry. -/
def ReadsPre (pren : List Particle) (r : PyFrag) : Prop :=
  r.npn = pren.length ∧
  (pren ≠ [] → List.Forall₂ ReadsP pren r.pren) ∧ (pren = [] → r.pren = [⟨0, 0, 0, 0⟩])

end CGMF.Spec

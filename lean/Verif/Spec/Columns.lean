import Verif.Spec.Data
import Verif.Spec.RtaTable
import Verif.Model.CNumber

/-!
# Tables printed in columns

A column is a number with blanks around it, filled to the width of the column.  The lines of the four tables are such
columns side by side.  The numbers are texts that are numbers as a whole (`pyInt`, `pyFloat` of `Model/Text.lean`), which
includes all that `printf` writes with `%d`, `%f` and `%g`.
-/

namespace CGMF.Spec

open CGMF.Text CGMF.Ripl CGMF.LevelText

/-- A whole number in a column of `n` characters. -/
def IntCol (n : Nat) (f : List Char) (i : Int) : Prop :=
  f.length = n ∧ ∃ b w b', f = b ++ (w ++ b') ∧ (∀ c ∈ b, c = ' ') ∧ (∀ c ∈ b', c = ' ') ∧ pyInt w = .ok i

/-- A decimal number in a column of `n` characters. -/
def NumCol (n : Nat) (f : List Char) (x : ℚ) : Prop :=
  f.length = n ∧ ∃ b w b', f = b ++ (w ++ b') ∧ (∀ c ∈ b, c = ' ') ∧ (∀ c ∈ b', c = ' ') ∧ pyFloat w = .ok x

/-- A line of the mass table: comment, or pairs of a nucleus in seven columns, the first one blank, and its mass excess in
eleven. -/
def PrintedMass (size : Nat) : MLine ℚ → Prop
  | .comment l => Comment l
  | .cells cs tail => (∀ c ∈ cs, IntCol 7 c.zfield c.zaid ∧ c.zfield.head? = some ' ' ∧ NumCol 11 c.vfield c.mass ∧
      0 ≤ c.zaid ∧ c.zaid < size ∧ '\n' ∉ c.zfield ∧ '\n' ∉ c.vfield) ∧ (tail = [] ∨ tail = ['\r'])

/-- A line of the deformation table: comment; or charge and mass number in four columns each, then 36 characters that do not
start with a digit, then the deformation in eight; or such a line without a deformation. -/
def PrintedDef (size : Nat) : DLine ℚ → Prop
  | .comment l => Comment l
  | .entry l z a x => '\n' ∉ l ∧ l.head? ≠ some '#' ∧ ∃ fz fa mid fb tail, l = fz ++ (fa ++ (mid ++ (fb ++ tail))) ∧
      IntCol 4 fz z ∧ IntCol 4 fa a ∧ mid.length = 36 ∧ (∀ c ∈ mid.head?, isDigit c = false) ∧ NumCol 8 fb x ∧
      (∀ c ∈ tail.head?, c = ' ' ∨ c = '\r') ∧ fb[6]? ≠ some ' ' ∧ 0 ≤ z ∧ z ≤ 99 ∧ 0 ≤ a ∧ a ≤ 199 ∧ 1000 * z + a < size
  | .blank l => '\n' ∉ l ∧ l.head? ≠ some '#' ∧ ∃ fz fa mid z a, l = fz ++ (fa ++ mid) ∧ IntCol 4 fz z ∧ IntCol 4 fa a ∧
      (∀ c ∈ mid.head?, isDigit c = false) ∧ 42 < mid.length ∧ z ≤ 99 ∧ (mid[42]? = some ' ' ∨ 199 < a)

/-- A line with a gamma transition: final level, probability, conversion coefficient. -/
def PrintedGam (l : List Char) (g : Gam ℚ) : Prop :=
  '\n' ∉ l ∧ ∃ f p c tail, l = f ++ (p ++ (c ++ tail)) ∧ IntCol 3 f g.nf ∧ NumCol 9 p g.pe ∧ NumCol 10 c g.ic

/-- A line with a level: energy, spin, parity, half-life, number of transitions. -/
def PrintedLevel (l : List Char) (r : Raw ℚ) (n : Nat) : Prop :=
  '\n' ∉ l ∧ ∃ e s p h k tail, l = e ++ (s ++ (p ++ (h ++ (k ++ tail)))) ∧ NumCol 10 e r.energy ∧ NumCol 5 s (r.spin2 / 2) ∧
    IntCol 3 p r.parity ∧ NumCol 13 h r.halflife ∧ IntCol 3 k n

/-- The first line of a nucleus: six characters, the nucleus in six columns, the number of levels in five. -/
def PrintedHead (l : List Char) (z : Int) (n : Nat) : Prop :=
  '\n' ∉ l ∧ l.head? ≠ some '#' ∧ ∃ name fz fn tail, l = name ++ (fz ++ (fn ++ tail)) ∧ name.length = 6 ∧ IntCol 6 fz z ∧ IntCol 5 fn n

/-- A comment or a nucleus of the level file. -/
def PrintedItem : LevelItem ℚ → Prop
  | .comment l => '\n' ∉ l ∧ l.head? = some '#'
  | .nucleus h z ls => PrintedHead h z ls.length ∧ ∀ r ∈ ls, PrintedLevel r.line r.raw r.raw.gammas.length ∧
      List.Forall₂ PrintedGam r.gams r.raw.gammas

/-- A line of the level density parameters: charge, mass number, pairing, shell correction, matching energy, parameter,
then temperature and shift twice; the first pair counts with a positive matching energy, else the second. -/
def PrintedKck (size : Nat) : KckItem ℚ → Prop
  | .comment l => '\n' ∉ l ∧ l.head? = some '#'
  | .row l za v => '\n' ∉ l ∧ l.head? ≠ some '#' ∧ 0 ≤ za ∧ za < size ∧
      ∃ fz fa f1 f2 f3 f4 f5 f6 f7 f8 tail z a pair shell ematch par t e0 t' e0',
        l = fz ++ (fa ++ (f1 ++ (f2 ++ (f3 ++ (f4 ++ (f5 ++ (f6 ++ (f7 ++ (f8 ++ tail))))))))) ∧
        IntCol 5 fz z ∧ IntCol 6 fa a ∧ za = 1000 * z + a ∧ NumCol 13 f1 pair ∧ NumCol 13 f2 shell ∧ NumCol 10 f3 ematch ∧
        NumCol 10 f4 par ∧ NumCol 10 f5 t ∧ NumCol 10 f6 e0 ∧ NumCol 10 f7 t' ∧ NumCol 10 f8 e0' ∧
        v = if 0 < ematch then [pair, shell, ematch, par, t, e0] else [pair, shell, ematch, par, t', e0']

/-- A line of the temperature ratios: nucleus in seven columns, first and last mass in five each, a blank, then the ratios
with one blank between two. -/
def PrintedRta (numA : Nat) : RtaItem ℚ → Prop
  | .comment l => '\n' ∉ l ∧ l.head? = some '#'
  | .blank l => l = [] ∨ l = ['\r']
  | .row r => '\n' ∉ r.line ∧ r.line.head? ≠ some '#' ∧ r.line.head? ≠ some '\r' ∧ r.vals ≠ [] ∧ r.lo + r.vals.length ≤ numA ∧
      ∃ fz fa fb, r.line = fz ++ (fa ++ (fb ++ ' ' :: (List.intersperse [' '] r.words).flatten)) ∧ IntCol 7 fz r.z ∧
        IntCol 5 fa r.lo ∧ IntCol 5 fb ((r.lo : Int) + r.vals.length - 1) ∧ fb.head? = some ' ' ∧
        List.Forall₂ (fun w x => ' ' ∉ w ∧ pyFloat w = .ok x) r.words r.vals

end CGMF.Spec

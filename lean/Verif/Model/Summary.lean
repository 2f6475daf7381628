import Verif.Model.Toolkit2

/-!
# The summary table and the multiplicities above a threshold

tools/CGMFtk/histories.py, `summaryTable` (1513-1543), `getNuEnergyCut` (441-449) and `getNugEnergyCut` (471-479);
tools/CGMFtk/yields.py, `summaryTable` (236-253). The conventions are those of `Model/Toolkit.lean`: the mean is the
exact one, a mean of nothing is NaN (`ub`). The labels of the rows are those of the code without the markup.
-/

namespace CGMF.Toolkit

open CGMF.Parser CGMF.Text

/-- `"{0:5.2f}".format(x)` is `cell 5 2`, `"{0:.3f}".format(x)` is `cell 0 3`: the number with `d` decimals, blanks in
front up to `w` characters; NaN is written `nan`. An exception ends the table. -/
def cell (w d : Nat) (x : Res ℚ) : Res (List Char) :=
  let pad := fun s : List Char => List.replicate (w - s.length) ' ' ++ s
  match x with
  | .ok q => .ok (pad (fmtFixed d q))
  | .ub => .ok (pad ['n', 'a', 'n'])
  | .exit => .exit

/-- A row of cells with the same format. -/
def cells (w d : Nat) : List (Res ℚ) → Res (List (List Char))
  | [] => .ok []
  | x :: xs => (cell w d x).bind fun c => (cells w d xs).bind fun cs => .ok (c :: cs)

/-- `np.mean` of a column, of its even and of its odd entries (1521, 1522, 1525, 1526). -/
def threeMeans (xs : List ℚ) : List (Res ℚ) := [mean xs, mean (evens xs), mean (odds xs)]

/-- `np.mean(self.TXE)`, `np.mean(self.Ul)`, `np.mean(self.Uh)` (1523) and the same for the kinetic energies (1524):
the first is the mean of the sums of light and heavy fragment (132, 137). -/
def sumMeans (xs : List ℚ) : List (Res ℚ) :=
  [(bcast (· + ·) (evens xs) (odds xs)).bind mean, mean (evens xs), mean (odds xs)]

/-- `meanNeutronEcmLF` and `meanNeutronEcmHF` (781-787). -/
def meanNeutronEcmLF (fs : List PyFrag) : Res ℚ := meanList (evens (nEcm fs))
def meanNeutronEcmHF (fs : List PyFrag) : Res ℚ := meanList (odds (nEcm fs))

/-- A row of the table: label, width and decimals of the format, means. -/
structure SumRow where
  label : String
  width : Nat
  decimals : Nat
  means : List (Res ℚ)

/-- The six rows about fragments (1521-1526, and the whole table in yields.py 244-249). -/
def fragmentRows (fs : List PyFrag) : List SumRow :=
  [⟨"A", 5, 2, threeMeans (toQ (masses fs))⟩,
   ⟨"Z", 5, 2, threeMeans (toQ (fs.map (·.z)))⟩,
   ⟨"TXE / U (MeV)", 5, 2, sumMeans (fs.map (·.xe))⟩,
   ⟨"TKE / KE (MeV)", 5, 2, sumMeans (fs.map (·.ke))⟩,
   ⟨"J", 5, 2, threeMeans (fs.map (·.j))⟩,
   ⟨"parity", 5, 2, threeMeans (toQ (fs.map (·.p)))⟩]

/-- `np.mean(self.nuLF+self.nuHF)` and the like. -/
def meanTotal (xs : List Int) : Res ℚ := (total xs).bind fun t => mean (toQ t)

/-- The rows about particles (1529-1541). -/
def particleRows (fs : List PyFrag) : List SumRow :=
  [⟨"nu", 0, 3, [meanTotal (nus fs), mean (toQ (evens (nus fs))), mean (toQ (odds (nus fs))), mean (toQ (preNu fs)),
      nubartot fs]⟩,
   ⟨"neutron energy, c.m.", 0, 3, [meanNeutronEcmFragments fs, meanNeutronEcmLF fs, meanNeutronEcmHF fs]⟩,
   ⟨"neutron energy, lab", 0, 3, [meanNeutronElabFragments fs, meanNeutronElabLF fs, meanNeutronElabHF fs,
      meanPreFissionNeutronElab fs, meanNeutronElab fs]⟩,
   ⟨"nu gamma", 5, 2, [meanTotal (nugs fs), mean (toQ (evens (nugs fs))), mean (toQ (odds (nugs fs)))]⟩,
   ⟨"photon energy, lab", 5, 2, [meanGammaElab fs, meanGammaElabLF fs, meanGammaElabHF fs]⟩]

/-- The rows in turn; an exception ends the table. -/
def render : List SumRow → Res (List (String × List (List Char)))
  | [] => .ok []
  | r :: rs => (cells r.width r.decimals r.means).bind fun cs => (render rs).bind fun t => .ok ((r.label, cs) :: t)

/-- `summaryTable` (1513-1543), without the row of titles (1518). -/
def summaryTable (fs : List PyFrag) : Res (List (String × List (List Char))) :=
  render (fragmentRows fs ++ particleRows fs)

/-- `En[En>Eth]` and its size (445-447, 475-477). -/
def above (eth : ℚ) (xs : List ℚ) : Int := (xs.filter fun x => decide (eth < x)).length

/-- `getNuEnergyCut` (441-449). -/
def getNuEnergyCut (eth : ℚ) (fs : List PyFrag) : List Int := (nElab fs).map (above eth)

/-- `getNugEnergyCut` (471-479). -/
def getNugEnergyCut (eth : ℚ) (fs : List PyFrag) : List Int := (gElab fs).map (above eth)

end CGMF.Toolkit

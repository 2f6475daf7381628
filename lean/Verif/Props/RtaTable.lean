import Verif.Proofs.RtaTable
import Verif.Props.LevelText

/-!
# C107: level density parameters and temperature ratios are read back
-/

namespace CGMF.Props

open CGMF CGMF.Data CGMF.LevelText CGMF.Spec

variable {K : Type} [Field K] [LinearOrder K]

omit [Field K] [LinearOrder K] in
private theorem open_text' {cwd dir : Option (List Char)} {t : List Char} (h : TextOf cwd dir t) :
    openData cwd dir = ⟨t, false, false⟩ := by
  rcases h with rfl | ⟨rfl, rfl⟩ <;> rfl

/-- **C107.** Level density parameters: after reading a well-formed file, every nucleus below the size of the table has the
six numbers of its last line, the temperature and shift from the columns its matching energy selects, and zeros if it has
none. -/
theorem C107_parameters (cv : Conv K) (size : Nat) (f : List (KckItem K)) (hf : ∀ x ∈ f, x.Good cv size)
    (cwd dir : Option (List Char)) (ht : TextOf cwd dir (withNewlines (f.map KckItem.text))) :
    ∃ tab, readKck cv size cwd dir = .ok tab ∧ tab.length = size ∧
      ∀ z : Nat, z < size → tab[z]? = some ((lastOf (f.flatMap KckItem.rows) z).getD (List.replicate 6 0)) := by
  have hnl : ∀ l ∈ f.map KckItem.text, '\n' ∉ l := by
    intro l hl
    obtain ⟨x, hx, rfl⟩ := List.mem_map.1 hl
    have := hf x hx
    cases x with
    | comment l => exact this.1
    | row l z v => exact this.1.1
  obtain ⟨tab, h1, h2, h3⟩ := kckLines_good f (List.replicate size (List.replicate 6 (0 : K))) (by simp) hf
  refine ⟨tab, ?_, h2, ?_⟩
  · unfold readKck
    rw [open_text' ht]
    simp only [Bool.false_eq_true, if_false]
    rw [lines_withNewlines _ hnl]
    exact h1
  · intro z hz
    rw [h3 z hz]
    cases lastOf (f.flatMap KckItem.rows) (z : Int) with
    | some v => rfl
    | none => simp [hz]

/-- **C107.** A line for a nucleus beyond the table is a write outside the table, whatever came before it. -/
theorem C107_parameters_overrun (cv : Conv K) (size : Nat) (f : List (KckItem K)) (hf : ∀ x ∈ f, x.Good cv size)
    (l : List Char) (z : Int) (v : List K) (h : KckShows cv l z v) (hz : z < 0 ∨ (size : Int) ≤ z) (rest : List (List Char))
    (hrest : ∀ l ∈ rest, '\n' ∉ l) (cwd dir : Option (List Char))
    (ht : TextOf cwd dir (withNewlines (f.map KckItem.text ++ l :: rest))) : readKck cv size cwd dir = .ub := by
  have hnl : ∀ x ∈ f.map KckItem.text ++ l :: rest, '\n' ∉ x := by
    intro x hx
    rcases List.mem_append.1 hx with hx | hx
    · obtain ⟨y, hy, rfl⟩ := List.mem_map.1 hx
      have := hf y hy
      cases y with
      | comment l => exact this.1
      | row l z v => exact this.1.1
    · rcases List.mem_cons.1 hx with rfl | hx
      · exact h.1
      · exact hrest _ hx
  unfold readKck
  rw [open_text' ht]
  simp only [Bool.false_eq_true, if_false]
  rw [lines_withNewlines _ hnl]
  have app : ∀ (a b : List (List Char)) (tab : List (List K)),
      kckLines cv (a ++ b) tab = (kckLines cv a tab).bind fun tab' => kckLines cv b tab' := by
    intro a
    induction a with
    | nil => intro b tab; rfl
    | cons x a ih =>
      intro b tab
      rw [List.cons_append, kckLines, kckLines]
      split
      · exact ih b tab
      · cases kckLine cv x tab with
        | ok t => simp only [bind_ok']; exact ih b t
        | exit => rfl
        | ub => rfl
  obtain ⟨tab, h1, h2, -⟩ := kckLines_good f (List.replicate size (List.replicate 6 (0 : K))) (by simp) hf
  rw [app, h1, bind_ok', kckLines, if_neg h.2.1, kckLine_good h]
  have : writeAt tab z v = .ub := by
    unfold writeAt
    rw [if_neg (by omega)]
  rw [this]
  rfl

/-- **C107.** Without the parameter file the run stops. -/
theorem C107_missing_file (cv : Conv K) (size numA : Nat) :
    readKck cv size none none = .exit ∧ readRta cv numA none none = .exit := ⟨rfl, rfl⟩

omit [LinearOrder K] [Field K] in
private theorem rta_nl [Field K] {cv : Conv K} {numA : Nat} {f : List (RtaItem K)} (hf : ∀ x ∈ f, x.Good cv numA) :
    ∀ l ∈ f.map RtaItem.text, '\n' ∉ l := by
  intro l hl
  obtain ⟨x, hx, rfl⟩ := List.mem_map.1 hl
  have := hf x hx
  cases x with
  | comment l => exact this.1
  | blank l => rcases this with rfl | rfl <;> simp [RtaItem.text]
  | row r => exact this.1

private theorem readRta_of {cv : Conv K} {numA : Nat} {f : List (RtaItem K)} (hf : ∀ x ∈ f, x.Good cv numA)
    (hten : (f.flatMap RtaItem.rows).length ≤ 10) {cwd dir : Option (List Char)}
    (ht : TextOf cwd dir (withNewlines (f.map RtaItem.text))) :
    readRta cv numA cwd dir = .ok ((f.flatMap RtaItem.rows).map (entry numA) ++
      List.replicate (10 - (f.flatMap RtaItem.rows).length) ⟨none, List.replicate numA 1⟩) := by
  have h := rtaLines_good f [] 10 hf
  rw [if_pos hten] at h
  simp only [List.nil_append, List.length_nil] at h
  unfold readRta
  rw [open_text' ht]
  simp only [Bool.false_eq_true, if_false]
  rw [lines_withNewlines _ (rta_nl hf)]
  exact h

/-- **C107** (the part that holds). Temperature ratios: with a file of at most ten rows, the ratio used for a listed target
and a heavy fragment mass is the one its first row gives for that mass, one outside the masses of the row.  With exactly
ten rows the ratio of every other target is one. -/
theorem C107_ratio_partial (cv : Conv K) (numA : Nat) (f : List (RtaItem K)) (hf : ∀ x ∈ f, x.Good cv numA)
    (hten : (f.flatMap RtaItem.rows).length ≤ 10) (cwd dir : Option (List Char))
    (ht : TextOf cwd dir (withNewlines (f.map RtaItem.text))) (target : Int) (ah : Nat) (ha : ah < numA)
    (hin : (∃ r ∈ f.flatMap RtaItem.rows, |r.z| = target) ∨ (f.flatMap RtaItem.rows).length = 10) :
    ∃ tab, readRta cv numA cwd dir = .ok tab ∧ ratio tab target ah = .ok (ratioOf (f.flatMap RtaItem.rows) target ah) := by
  refine ⟨_, readRta_of hf hten ht, ?_⟩
  · rw [ratio_entries target ah ha, if_pos (hin.imp_right fun h => by omega)]

/-- **C107**, where it fails: with fewer than ten rows the search for a target that is not listed reads the nucleus of an
entry that was never set, so the ratio is not defined. -/
theorem C107_unlisted (cv : Conv K) (numA : Nat) (f : List (RtaItem K)) (hf : ∀ x ∈ f, x.Good cv numA)
    (hten : (f.flatMap RtaItem.rows).length < 10) (cwd dir : Option (List Char))
    (ht : TextOf cwd dir (withNewlines (f.map RtaItem.text))) (target : Int) (ah : Nat) (ha : ah < numA)
    (hin : ∀ r ∈ f.flatMap RtaItem.rows, |r.z| ≠ target) :
    ∃ tab, readRta cv numA cwd dir = .ok tab ∧ ratio tab target ah = .ub := by
  refine ⟨_, readRta_of hf hten.le ht, ?_⟩
  · rw [ratio_entries target ah ha, if_neg]
    rintro (⟨r, hr, hz⟩ | h0)
    · exact hin r hr hz
    · omega

/-- **C107.** An eleventh row is written past the end of the table. -/
theorem C107_ratio_overrun (cv : Conv K) (numA : Nat) (f : List (RtaItem K)) (hf : ∀ x ∈ f, x.Good cv numA)
    (hten : 10 < (f.flatMap RtaItem.rows).length) (cwd dir : Option (List Char))
    (ht : TextOf cwd dir (withNewlines (f.map RtaItem.text))) : readRta cv numA cwd dir = .ub := by
  have h := rtaLines_good f [] 10 hf
  rw [if_neg (by omega)] at h
  simp only [List.nil_append, List.length_nil] at h
  unfold readRta
  rw [open_text' ht]
  simp only [Bool.false_eq_true, if_false]
  rw [lines_withNewlines _ (rta_nl hf)]
  exact h

/-- **C107.** The sign that marks spontaneous fission in the file plays no part: a row for spontaneous fission also gives
the ratios of the neutron-induced fission that leads to the same nucleus, and hides a later row of its own. -/
theorem C107_sign (cv : Conv K) (numA : Nat) (pre post : List (RtaItem K)) (r : RtaRow K)
    (hf : ∀ x ∈ pre ++ .row r :: post, x.Good cv numA) (hneg : r.z < 0)
    (hten : ((pre ++ .row r :: post).flatMap RtaItem.rows).length ≤ 10)
    (hpre : ∀ x ∈ pre.flatMap RtaItem.rows, |x.z| ≠ -r.z) (cwd dir : Option (List Char))
    (ht : TextOf cwd dir (withNewlines ((pre ++ .row r :: post).map RtaItem.text))) (k : Nat) (hk : k < r.vals.length) :
    ∃ tab, readRta cv numA cwd dir = .ok tab ∧ ratio tab (-r.z) ((r.lo + k : Nat) : Int) = .ok (r.vals[k]) := by
  have hgood : r.Good cv numA := hf (.row r) (by simp)
  have hnum : r.lo + r.vals.length ≤ numA := hgood.2.2.2.2.2.2.2.2.1
  have habs : |r.z| = -r.z := abs_of_neg hneg
  obtain ⟨tab, h1, h2⟩ := C107_ratio_partial cv numA _ hf hten cwd dir ht (-r.z) (r.lo + k) (by omega)
    (Or.inl ⟨r, by simp [RtaItem.rows], habs⟩)
  refine ⟨tab, h1, ?_⟩
  rw [h2]
  congr 1
  have hrows : (pre ++ RtaItem.row r :: post).flatMap RtaItem.rows =
      pre.flatMap RtaItem.rows ++ r :: post.flatMap RtaItem.rows := by simp [RtaItem.rows]
  have hfind : (pre.flatMap RtaItem.rows ++ r :: post.flatMap RtaItem.rows).find? (fun x => |x.z| == -r.z) = some r := by
    rw [List.find?_append, List.find?_eq_none.2 (by
      intro x hx
      simpa using hpre x hx)]
    simp [habs]
  unfold ratioOf
  rw [hrows, hfind]
  simp [hk]

/-! ## Small files -/

private def kckRow : List Char :=
  "    2     6   4             5            3         1         7         8         0         0       ".toList

/-- Two lines for one nucleus: the hypotheses of `C107_parameters` hold, and nucleus 2006 has the numbers shown. -/
example : ∃ tab, readKck digitConv 2010 (some (withNewlines ["# comment".toList, kckRow])) none = .ok tab ∧
    tab[2006]? = some [4, 5, 3, 1, 7, 8] ∧ tab[2005]? = some [0, 0, 0, 0, 0, 0] := by
  have hf : ∀ x ∈ ([.comment "# comment".toList, .row kckRow 2006 [4, 5, 3, 1, 7, 8]] : List (KckItem ℚ)),
      x.Good digitConv 2010 := by
    intro x hx
    simp only [List.mem_cons, List.not_mem_nil, or_false] at hx
    rcases hx with rfl | rfl
    · exact ⟨by decide, by decide⟩
    · refine ⟨⟨by decide, by decide, by decide, by decide +kernel, Or.inl ⟨by decide +kernel, by decide +kernel⟩⟩,
        by decide, by decide⟩
  obtain ⟨tab, h1, -, h3⟩ := C107_parameters digitConv 2010 _ hf _ none (Or.inl rfl)
  exact ⟨tab, h1, by rw [h3 2006 (by omega)]; rfl, by rw [h3 2005 (by omega)]; rfl⟩

private def rtaRow : RtaRow ℚ := ⟨"      7  3    4   5 6".toList, 7, 3, ["5".toList, "6".toList], [5, 6]⟩

/-- One row: the ratio of its nucleus is found, that of another nucleus is not defined. -/
example : ∃ tab, readRta digitConv 9 (some (withNewlines [rtaRow.line])) none = .ok tab ∧ ratio tab 7 4 = .ok 6 ∧
    ratio tab 8 4 = .ub := by
  have hf : ∀ x ∈ ([.row rtaRow] : List (RtaItem ℚ)), x.Good digitConv 9 := by
    intro x hx
    simp only [List.mem_cons, List.not_mem_nil, or_false] at hx
    subst hx
    refine ⟨by decide, by decide, by decide, by decide, by decide +kernel, by decide +kernel, by decide +kernel, by decide,
      by decide, by decide +kernel, by decide, [], by decide, Or.inl rfl⟩
  obtain ⟨tab, h1, h2⟩ := C107_ratio_partial digitConv 9 _ hf (by decide) _ none (Or.inl rfl) 7 4 (by omega)
    (Or.inl ⟨rtaRow, by simp [RtaItem.rows], rfl⟩)
  obtain ⟨tab', h1', h2'⟩ := C107_unlisted digitConv 9 _ hf (by decide) _ none (Or.inl rfl) 8 4 (by omega)
    (by intro r hr; simp [RtaItem.rows] at hr; subst hr; decide)
  have hsame : tab' = tab := by
    have : (Res.ok tab' : Res _) = .ok tab := h1'.symm.trans h1
    cases this; rfl
  subst hsame
  exact ⟨tab', h1, h2, h2'⟩

/-- The same line with a table that ends before its nucleus. -/
example : readKck (K := ℚ) digitConv 2006 (some (withNewlines ["# comment".toList, kckRow])) none = .ub :=
  C107_parameters_overrun digitConv 2006 [.comment "# comment".toList] (by
      intro x hx
      simp only [List.mem_cons, List.not_mem_nil, or_false] at hx
      subst hx
      exact ⟨by decide, by decide⟩) kckRow 2006 [4, 5, 3, 1, 7, 8]
    ⟨by decide, by decide, by decide, by decide +kernel, Or.inl ⟨by decide +kernel, by decide +kernel⟩⟩ (Or.inr (by norm_num)) []
    (by simp) _ none (Or.inl rfl)

/-- Eleven rows. -/
example : readRta (K := ℚ) digitConv 9 (some (withNewlines (List.replicate 11 rtaRow.line))) none = .ub := by
  have hf : ∀ x ∈ List.replicate 11 (RtaItem.row rtaRow), x.Good digitConv 9 := by
    intro x hx
    rw [List.eq_of_mem_replicate hx]
    refine ⟨by decide, by decide, by decide, by decide, by decide +kernel, by decide +kernel, by decide +kernel, by decide,
      by decide, by decide +kernel, by decide, [], by decide, Or.inl rfl⟩
  exact C107_ratio_overrun digitConv 9 _ hf (by decide) _ none (Or.inl (by simp [RtaItem.text]))

end CGMF.Props

import Verif.Props.Cut

/-!
# C120: a yields file that ends too early
-/

namespace CGMF.Props

open CGMF CGMF.Text CGMF.Printer CGMF.Parser CGMF.Spec CGMF.History

theorem floats_cases (ts : List (List Char)) : floats ts = .exit ∨ ∃ xs, floats ts = .ok xs := by
  induction ts with
  | nil => exact Or.inr ⟨[], rfl⟩
  | cons t ts ih =>
    rw [floats]
    rcases pyFloat_cases t with h | ⟨x, h⟩
    · left; rw [h]; rfl
    rw [h, Res.bind_ok]
    rcases ih with h | ⟨xs, h⟩
    · left; rw [h]; rfl
    · right; rw [h]; exact ⟨_, rfl⟩

theorem floats_length {ts : List (List Char)} {xs : List ℚ} (h : floats ts = .ok xs) : xs.length = ts.length := by
  induction ts generalizing xs with
  | nil => cases h; rfl
  | cons t ts ih =>
    rw [floats] at h
    obtain ⟨x, -, h⟩ := Res.bind_eq_ok.mp h
    obtain ⟨ys, hy, h⟩ := Res.bind_eq_ok.mp h
    cases h
    simp [ih hy]

/-- The tokens of a cut line: fewer numbers, or the same but the last. -/
theorem floats_cut {xs ts : List (List Char)} (h : TokCut xs ts) {a b : List ℚ} (ha : floats xs = .ok a)
    (hb : floats ts = .ok b) : a.length < b.length ∨ ∃ y, a = lastNumber y b := by
  induction h generalizing a b with
  | nil ts =>
    cases ha
    cases ts with
    | nil => cases hb; right; exact ⟨0, rfl⟩
    | cons t ts => left; rw [floats_length hb]; simp
  | @part q t ts hq =>
    cases ts with
    | nil =>
      right
      obtain ⟨x, hx⟩ := List.length_eq_one_iff.mp (floats_length ha)
      obtain ⟨y, hy⟩ := List.length_eq_one_iff.mp (floats_length hb)
      subst hx; subst hy
      exact ⟨x, rfl⟩
    | cons s ts => left; rw [floats_length ha, floats_length hb]; simp
  | @cons t xs ts h ih =>
    rw [floats] at ha hb
    obtain ⟨x, hx, ha⟩ := Res.bind_eq_ok.mp ha
    obtain ⟨a', ha', ha⟩ := Res.bind_eq_ok.mp ha
    obtain ⟨x', hx', hb⟩ := Res.bind_eq_ok.mp hb
    obtain ⟨b', hb', hb⟩ := Res.bind_eq_ok.mp hb
    cases ha; cases hb
    rw [hx] at hx'; cases hx'
    rcases ih ha' hb' with h1 | ⟨y, rfl⟩
    · left; simpa using h1
    · right
      cases b' with
      | nil => exact ⟨x, rfl⟩
      | cons c b' => exact ⟨y, rfl⟩

theorem firstRows_nil (full : List (List ℚ)) : FirstRows [] full := ⟨0, Or.inl rfl⟩

/-- The rows read from a cut file, before the check of the shape. -/
theorem loadRows_cut (fs : List YFrag) : ∀ T, Cut (fs.map (fun f => spaced (yToks f))) T → loadRows T = .exit ∨
    ∃ rows, loadRows T = .ok rows ∧ (FirstRows rows (fs.map rYield) ∨ ∃ n r, rows = (fs.map rYield).take n ++ [r] ∧
      r.length < 9) := by
  induction fs with
  | nil =>
    intro T h
    cases h
    exact Or.inr ⟨[], rfl, Or.inl (firstRows_nil _)⟩
  | cons f fs ih =>
    intro T h
    have hfull : floats (yToks f) = .ok (rYield f) := by
      simp only [yToks, floats, pyFloat_fmtInt, pyFloat_fmtG, Res.bind_ok, Res.pure_eq, rYield]
    rw [List.map_cons] at h
    cases h with
    | nil => exact Or.inr ⟨[], rfl, Or.inl (firstRows_nil _)⟩
    | part h1 h2 =>
      rename_i p
      have hc : TokCut (pySplit p) (yToks f) := by
        have := splitAux_cut p (spaced (yToks f) ++ ['\n']) [] (h2.trans (List.prefix_append _ _))
        have hs := split_post _ (isTok_yToks f)
        unfold pySplit at hs ⊢
        rwa [hs] at this
      rcases floats_cases (pySplit p) with h3 | ⟨a, h3⟩
      · left; rw [loadRows, h3]; rfl
      · right
        rw [loadRows, h3]
        simp only [Res.bind_ok, loadRows, Res.pure_eq]
        refine ⟨_, rfl, ?_⟩
        split_ifs with he
        · exact Or.inl (firstRows_nil _)
        · rcases floats_cut hc h3 hfull with h4 | ⟨y, rfl⟩
          · right; exact ⟨0, a, rfl, by simpa [rYield] using h4⟩
          · left; exact ⟨0, Or.inr ⟨rYield f, y, rfl, rfl⟩⟩
    | cons h1 =>
      rename_i T
      have hrow : ∀ x, loadRows T = x → loadRows ((spaced (yToks f) ++ ['\n']) :: T)
          = x >>= fun rows => .ok (rYield f :: rows) := by
        intro x hx
        rw [loadRows, split_post _ (isTok_yToks f), hfull, hx]
        simp [yToks]
      rcases ih T h1 with h2 | ⟨rows, h2, h3⟩
      · left; rw [hrow _ h2]; rfl
      · right
        refine ⟨rYield f :: rows, by rw [hrow _ h2]; rfl, ?_⟩
        rcases h3 with ⟨n, rfl | ⟨g, y, hg, rfl⟩⟩ | ⟨n, r, rfl, hr⟩
        · left; exact ⟨n + 1, Or.inl rfl⟩
        · left; exact ⟨n + 1, Or.inr ⟨g, y, hg, rfl⟩⟩
        · right; exact ⟨n + 1, r, rfl, hr⟩

theorem column_ok {c : Nat} {rows : List (List ℚ)} {xs : List ℚ} (h : column c rows = .ok xs) :
    rows.map (·[c]?) = xs.map some := by
  induction rows generalizing xs with
  | nil => cases h; rfl
  | cons r rs ih =>
    unfold column at h
    split at h
    · cases h
    · rename_i x hx
      obtain ⟨ys, hy, h⟩ := Res.bind_eq_ok.mp h
      cases h
      simp [hx, ih hy]

theorem column_cases (c : Nat) (rows : List (List ℚ)) : column c rows = .exit ∨ ∃ xs, column c rows = .ok xs := by
  induction rows with
  | nil => exact Or.inr ⟨[], rfl⟩
  | cons r rs ih =>
    unfold column
    split
    · exact Or.inl rfl
    · rcases ih with h | ⟨xs, h⟩
      · left; rw [h]; rfl
      · right; rw [h]; exact ⟨_, rfl⟩

theorem column_length {c : Nat} {rows : List (List ℚ)} {xs : List ℚ} (h : column c rows = .ok xs) :
    xs.length = rows.length := by
  have := congrArg List.length (column_ok h)
  simpa using this.symm

theorem column_nine {c : Nat} (hc : c < 9) {rows : List (List ℚ)} (h : ∀ r ∈ rows, r.length = 9) :
    ∃ xs, column c rows = .ok xs := by
  induction rows with
  | nil => exact ⟨[], rfl⟩
  | cons r rs ih =>
    obtain ⟨xs, hx⟩ := ih (fun r hr => h r (by simp [hr]))
    have hr := h r (by simp)
    unfold column
    rw [List.getElem?_eq_getElem (by omega), hx]
    exact ⟨_, rfl⟩

/-- The part of `openYields` after the reader. -/
theorem openYields_ok {nev : Option Nat} {text : List Char} {Y : PyYields} (h : openYields nev text = .ok Y) :
    ∃ rows u ke, loadRows (fileLines text) = .ok rows ∧ rectangular rows = true ∧ 2 ≤ rows.length ∧
      Y.rows = (match nev with | none => rows | some n => rows.take (2 * n)) ∧ column 1 Y.rows = .ok Y.a ∧
      column 0 Y.rows = .ok Y.z ∧ column 3 Y.rows = .ok u ∧ column 2 Y.rows = .ok ke ∧ perEvent ke = .ok Y.tke ∧
      perEvent u = .ok Y.txe ∧ Y.numberEvents = Y.rows.length / 2 := by
  unfold openYields at h
  obtain ⟨rows, h1, h⟩ := Res.bind_eq_ok.mp h
  split_ifs at h with h2
  dsimp only at h
  simp only [Bool.and_eq_true, decide_eq_true_eq] at h2
  obtain ⟨a, ha, h⟩ := Res.bind_eq_ok.mp h
  obtain ⟨z, hz, h⟩ := Res.bind_eq_ok.mp h
  obtain ⟨u, hu, h⟩ := Res.bind_eq_ok.mp h
  obtain ⟨ke, hk, h⟩ := Res.bind_eq_ok.mp h
  obtain ⟨e, -, h⟩ := Res.bind_eq_ok.mp h
  obtain ⟨tke, ht, h⟩ := Res.bind_eq_ok.mp h
  obtain ⟨txe, hx, h⟩ := Res.bind_eq_ok.mp h
  cases h
  exact ⟨rows, u, ke, h1, h2.1, h2.2, rfl, ha, hz, hu, hk, ht, hx, rfl⟩

theorem perEvent_cases {α : Type} [Add α] (l : List α) : perEvent l = .exit ∨ ∃ x, perEvent l = .ok x := by
  unfold perEvent npAdd
  split_ifs
  · exact Or.inr ⟨_, rfl⟩
  · split
    · exact Or.inr ⟨_, rfl⟩
    · exact Or.inr ⟨_, rfl⟩
    · exact Or.inl rfl

theorem openYields_cases {nev : Option Nat} {text : List Char} {rows : List (List ℚ)}
    (hr : loadRows (fileLines text) = .ok rows) : openYields nev text = .exit ∨ ∃ Y, openYields nev text = .ok Y := by
  unfold openYields
  rw [hr, Res.bind_ok]
  split
  · extract_lets data
    clear_value data
    rcases column_cases 1 data with h | ⟨_, h⟩
    · left; rw [h]; rfl
    rw [h, Res.bind_ok]
    rcases column_cases 0 data with h | ⟨_, h⟩
    · left; rw [h]; rfl
    rw [h, Res.bind_ok]
    rcases column_cases 3 data with h | ⟨u, h⟩
    · left; rw [h]; rfl
    rw [h, Res.bind_ok]
    rcases column_cases 2 data with h | ⟨ke, h⟩
    · left; rw [h]; rfl
    rw [h, Res.bind_ok]
    rcases column_cases 8 data with h | ⟨_, h⟩
    · left; rw [h]; rfl
    rw [h, Res.bind_ok]
    rcases perEvent_cases ke with h | ⟨_, h⟩
    · left; rw [h]; rfl
    rw [h, Res.bind_ok]
    rcases perEvent_cases u with h | ⟨_, h⟩
    · left; rw [h]; rfl
    rw [h, Res.bind_ok]
    right; exact ⟨_, rfl⟩
  · left; rfl

theorem firstRows_take {rows full : List (List ℚ)} (h : FirstRows rows full) (m : Nat) : FirstRows (rows.take m) full := by
  obtain ⟨n, rfl | ⟨g, y, hg, rfl⟩⟩ := h
  · exact ⟨min m n, Or.inl (by rw [List.take_take])⟩
  · have hn : n < full.length := (List.getElem?_eq_some_iff.mp hg).1
    by_cases hm : m ≤ n
    · refine ⟨m, Or.inl ?_⟩
      rw [List.take_append_of_le_length (by rw [List.length_take]; omega), List.take_take, min_eq_left hm]
    · refine ⟨n, Or.inr ⟨g, y, hg, ?_⟩⟩
      rw [List.take_of_length_le]
      simp; omega

theorem yieldsFile_lines (evs : List (YFrag × YFrag)) : yieldsFile evs
    = ((evs.flatMap (fun e => [e.1, e.2])).map (fun f => spaced (yToks f))).flatMap (fun l => l ++ ['\n']) := by
  unfold yieldsFile
  rw [List.flatMap_map, List.flatMap_assoc]
  apply List.flatMap_congr
  intro e _
  simp [yieldRow_eq]

/-- **C120 (partial).** A yields file cut at any character is never read as something else: loading raises, or gives
the first rows of the complete file, all numbers right except perhaps the last component of the last momentum; the rows
are an even number unless they are three.  (Missing: that last component may be wrong, `C120_wrong_number`, and three rows are paired
wrongly, `C120_pairing`.) -/
theorem C120_cut_partial (evs : List (YFrag × YFrag)) :
    ∃ full, readYields none (yieldsFile evs) = .ok full ∧
      ∀ nev k, openYields nev ((yieldsFile evs).take k) = .exit ∨
        ∃ Y, openYields nev ((yieldsFile evs).take k) = .ok Y ∧ FirstRows Y.rows full ∧
          (Y.rows.length % 2 = 0 ∨ Y.rows.length = 3) := by
  set fs := evs.flatMap (fun e => [e.1, e.2]) with hfs
  have hno : ∀ l ∈ fs.map (fun f => spaced (yToks f)), '\n' ∉ l := by
    intro l hl
    simp only [List.mem_map] at hl
    obtain ⟨f, _, rfl⟩ := hl
    exact spaced_no_newline _ (isTok_yToks f)
  have hread : readYields none (yieldsFile evs) = .ok (fs.map rYield) := by
    unfold readYields
    rw [yieldsFile_lines, fileLines_flatMap _ hno, List.map_map]
    have := loadRows_rows fs
    simp only [Function.comp_def]
    rw [this]; rfl
  refine ⟨_, hread, fun nev k => ?_⟩
  have hc := cut_take _ hno k
  rw [← yieldsFile_lines] at hc
  rcases loadRows_cut fs _ hc with h | ⟨rows, h, hrows⟩
  · left; unfold openYields; rw [h]; rfl
  · rcases openYields_cases (nev := nev) h with h1 | ⟨Y, h1⟩
    · exact Or.inl h1
    · right
      obtain ⟨rows', u, ke, h2, h3, h4, h5, h6, h7, h8, h9, h10, -⟩ := openYields_ok h1
      rw [h] at h2; cases h2
      have hrows' : FirstRows rows (fs.map rYield) := by
        rcases hrows with hrows | ⟨n, r, rfl, hr⟩
        · exact hrows
        · exfalso
          unfold rectangular at h3
          rw [allSame_iff] at h3
          have hlt : 0 < n ∧ 0 < fs.length := by
            rw [List.length_append, List.length_take] at h4; simp at h4; omega
          obtain ⟨n, rfl⟩ : ∃ m, n = m + 1 := ⟨n - 1, by omega⟩
          obtain ⟨f, fs', hf⟩ := List.exists_cons_of_length_pos hlt.2
          rw [hf] at h3
          have := h3 9 (by simp [rYield]) r.length (by simp)
          omega
      refine ⟨Y, h1, ?_, ?_⟩
      · rw [h5]
        cases nev with
        | none => exact hrows'
        | some n => exact firstRows_take hrows' _
      · by_contra hcon
        push Not at hcon
        have hl := column_length h9
        have h11 : Y.rows.length ≠ 1 := by
          rw [h5]
          cases nev with
          | none => show rows.length ≠ 1; omega
          | some n => show (rows.take (2 * n)).length ≠ 1; rw [List.length_take]; omega
        rw [perEvent_odd (by omega) (by omega) (by omega)] at h10
        cases h10

/-- **C120.** An even number of rows: mass and charge are columns two and one, and the energies of event `k` are the sums
over rows `2k` and `2k+1`. -/
theorem C120_totals (nev : Option Nat) (text : List Char) (Y : PyYields) (h : openYields nev text = .ok Y)
    (he : Y.rows.length % 2 = 0) :
    Y.tke.length = Y.numberEvents ∧ 2 * Y.numberEvents = Y.rows.length ∧
      ∀ k l g, Y.rows[2 * k]? = some l → Y.rows[2 * k + 1]? = some g →
        ∃ a b c d : ℚ, l[2]? = some a ∧ g[2]? = some b ∧ l[3]? = some c ∧ g[3]? = some d ∧
          Y.tke[k]? = some (a + b) ∧ Y.txe[k]? = some (c + d) ∧ Y.a[2 * k]? = l[1]? ∧ Y.z[2 * k]? = l[0]? := by
  obtain ⟨rows, u, ke, h2, h3, h4, h5, h6, h7, h8, h9, h10, h11, h12⟩ := openYields_ok h
  have hk := column_length h9
  have hu := column_length h8
  have p1 := perEvent_at (by omega) h10
  have p2 := perEvent_at (by omega) h11
  refine ⟨by omega, by omega, ?_⟩
  intro k l g hl hg
  have e : ∀ {c : Nat} {xs : List ℚ}, column c Y.rows = .ok xs → ∀ (j : Nat) (r : List ℚ), Y.rows[j]? = some r →
      ∃ x, r[c]? = some x ∧ xs[j]? = some x := by
    intro c xs hc j r hj
    have h0 := congrArg (fun l : List (Option ℚ) => l[j]?) (column_ok hc)
    simp only [List.getElem?_map, hj, Option.map_some] at h0
    cases hx : xs[j]? with
    | none => rw [hx] at h0; cases h0
    | some x => rw [hx] at h0; exact ⟨x, Option.some.inj h0, rfl⟩
  obtain ⟨a, ha, ha'⟩ := e h9 _ _ hl
  obtain ⟨b, hb, hb'⟩ := e h9 _ _ hg
  obtain ⟨c, hc, hc'⟩ := e h8 _ _ hl
  obtain ⟨d, hd, hd'⟩ := e h8 _ _ hg
  obtain ⟨m, hm, hm'⟩ := e h6 _ _ hl
  obtain ⟨q, hq, hq'⟩ := e h7 _ _ hl
  exact ⟨a, b, c, d, ha, hb, hc, hd, p1.2 k _ _ ha' hb', p2.2 k _ _ hc' hd', hm'.trans hm.symm, hq'.trans hq.symm⟩

/-- C120: every complete file of at least one event is loaded, with all its events. -/
theorem C120_complete (evs : List (YFrag × YFrag)) (h : evs ≠ []) :
    ∃ Y, openYields none (yieldsFile evs) = .ok Y ∧ readYields none (yieldsFile evs) = .ok Y.rows ∧
      Y.numberEvents = evs.length := by
  set fs := evs.flatMap (fun e => [e.1, e.2]) with hfs
  have hno : ∀ l ∈ fs.map (fun f => spaced (yToks f)), '\n' ∉ l := by
    intro l hl
    simp only [List.mem_map] at hl
    obtain ⟨f, _, rfl⟩ := hl
    exact spaced_no_newline _ (isTok_yToks f)
  have hload : loadRows (fileLines (yieldsFile evs)) = .ok (fs.map rYield) := by
    rw [yieldsFile_lines, fileLines_flatMap _ hno, List.map_map]
    exact loadRows_rows fs
  have hlen : fs.length = 2 * evs.length := by
    rw [hfs]
    clear * -
    induction evs with
    | nil => rfl
    | cons v vs ih => simp [ih]; ring
  have hpos := List.length_pos_of_ne_nil h
  have h9 : ∀ r ∈ fs.map rYield, r.length = 9 := by
    intro r hr
    obtain ⟨f, -, rfl⟩ := List.mem_map.mp hr
    rfl
  have hrect : rectangular (fs.map rYield) = true := by
    unfold rectangular
    rw [allSame_iff]
    intro a ha b hb
    obtain ⟨r, hr, rfl⟩ := List.mem_map.mp ha
    obtain ⟨r', hr', rfl⟩ := List.mem_map.mp hb
    rw [h9 r hr, h9 r' hr']
  obtain ⟨a, ha⟩ := column_nine (c := 1) (by omega) h9
  obtain ⟨z, hz⟩ := column_nine (c := 0) (by omega) h9
  obtain ⟨u, hu⟩ := column_nine (c := 3) (by omega) h9
  obtain ⟨ke, hk⟩ := column_nine (c := 2) (by omega) h9
  obtain ⟨w, hw⟩ := column_nine (c := 8) (by omega) h9
  have lu := column_length hu
  have lk := column_length hk
  rw [List.length_map] at lu lk
  refine ⟨⟨fs.map rYield, (fs.map rYield).length / 2, a, z, (evens ke).zipWith (· + ·) (odds ke),
    (evens u).zipWith (· + ·) (odds u)⟩, ?_, ?_, ?_⟩
  · unfold openYields
    rw [hload, Res.bind_ok, if_pos (by rw [hrect]; simp; omega)]
    dsimp only
    rw [ha, Res.bind_ok, hz, Res.bind_ok, hu, Res.bind_ok, hk, Res.bind_ok, hw, Res.bind_ok,
      perEvent_even (by omega), Res.bind_ok, perEvent_even (by omega), Res.bind_ok]
    rfl
  · unfold readYields
    rw [hload]; rfl
  · simp only [List.length_map]; omega

/-- Two events in yields mode. -/
def demoY1 : YFrag := ⟨42, 104, 101, 25 / 2, 7 / 2, -1, 1, 2, 3⟩
def demoY2 : YFrag := ⟨52, 132, 70, 10, 4, 1, -1, -2, -3⟩
def demoY3 : YFrag := ⟨40, 100, 95, 20, 1, 1, 3, 2, 1 / 100000⟩
def demoYs : List (YFrag × YFrag) := [(demoY1, demoY2), (demoY3, demoY2)]

/-- C120, what is wrong: a file cut after three rows is loaded without complaint; `TKE` has two entries for one event,
and the second belongs to no event. -/
theorem C120_pairing : ∃ k Y, openYields none ((yieldsFile demoYs).take k) = .ok Y ∧ Y.numberEvents = 1 ∧
    Y.tke = [101 + 70, 95 + 70] ∧ Y.rows.length = 3 := by
  have h : openYields none ((yieldsFile demoYs).take ((yieldRow demoY1 ++ yieldRow demoY2 ++ yieldRow demoY3).length))
    = .ok ⟨[[42, 104, 101, 25 / 2, 7 / 2, -1, 1, 2, 3], [52, 132, 70, 10, 4, 1, -1, -2, -3],
        [40, 100, 95, 20, 1, 1, 3, 2, 1 / 100000]], 1, [104, 132, 100], [42, 52, 40], [171, 165], [45 / 2, 30]⟩ := by
    decide +kernel
  exact ⟨_, _, h, rfl, by norm_num, rfl⟩

/-- C120, what is wrong: here the file is cut inside `1e-05`, and the component is loaded as 1. -/
theorem C120_wrong_number : ∃ k Y, openYields none ((yieldsFile [(demoY1, demoY3)]).take k) = .ok Y ∧
    Y.rows.length = 2 ∧ (Y.rows.getLast?.bind (·.getLast?)) = some 1 ∧ demoY3.pz = 1 / 100000 := by
  have h : openYields none ((yieldsFile [(demoY1, demoY3)]).take ((yieldsFile [(demoY1, demoY3)]).length - 6))
    = .ok ⟨[[42, 104, 101, 25 / 2, 7 / 2, -1, 1, 2, 3], [40, 100, 95, 20, 1, 1, 3, 2, 1]], 1, [104, 100], [42, 40],
        [196], [65 / 2]⟩ := by
    decide +kernel
  exact ⟨_, _, h, rfl, rfl, rfl⟩

/-! Cases of the theorems above: a row with fewer columns is refused, so is a file with one row; a complete file loads
and its totals are per event. -/
example : openYields none ((yieldsFile demoYs).take ((yieldRow demoY1).length + 10)) = .exit := by decide +kernel
example : openYields none ((yieldsFile demoYs).take ((yieldRow demoY1).length)) = .exit := by decide +kernel
example : ∃ Y, openYields none (yieldsFile demoYs) = .ok Y ∧ Y.rows.length % 2 = 0 ∧ Y.tke = [171, 165] := by
  have h : openYields none (yieldsFile demoYs)
    = .ok ⟨[[42, 104, 101, 25 / 2, 7 / 2, -1, 1, 2, 3], [52, 132, 70, 10, 4, 1, -1, -2, -3],
        [40, 100, 95, 20, 1, 1, 3, 2, 1 / 100000], [52, 132, 70, 10, 4, 1, -1, -2, -3]], 2, [104, 132, 100, 132],
        [42, 52, 40, 52], [171, 165], [45 / 2, 30]⟩ := by
    decide +kernel
  exact ⟨_, h, rfl, rfl⟩

end CGMF.Props

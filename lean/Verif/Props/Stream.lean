import Verif.Proofs.Stream
import Verif.Props.Data

/-!
# C146: tables with numbers between blanks are read digit for digit

Readable from the statements with `Model/Stream.lean` (the stream), `Spec/Data.lean` (how a file is laid out) and
`Model/Text.lean` (how numbers are written; `pyInt`, `pyFloat`: texts that are numbers as a whole).
-/

namespace CGMF.Props

open CGMF CGMF.Text CGMF.Data CGMF.Spec CGMF.Stream

/-- A number of the file: a whole number within `int`, or a decimal number, and white space after it. -/
def IntCell (c : Cell Int) : Prop := Gap c.gap ∧ pyInt c.word = .ok c.val ∧ -2147483648 ≤ c.val ∧ c.val ≤ 2147483647

/-- See `IntCell`. -/
def NumCell (c : Cell ℚ) : Prop := Gap c.gap ∧ pyFloat c.word = .ok c.val

/-- A row: a nucleus below `size` and `n` values. -/
def Row (size n : Nat) (r : DRow ℚ) : Prop :=
  IntCell r.head ∧ r.cells.length = n ∧ (∀ c ∈ r.cells, NumCell c) ∧ 0 ≤ r.head.val ∧ r.head.val < size

theorem digits_word {t : List Char} {n : Nat} (h : pyNat t = .ok n) : ∀ c ∈ t, isWs c = false := fun c hc =>
  isWs_digit ((digits_all h).2.1 c hc)

theorem int_word {w : List Char} {i : Int} (h : pyInt w = .ok i) : Word w := by
  unfold pyInt at h
  split at h <;> obtain ⟨n, h1, -⟩ := Res.bind_eq_ok.1 h
  · refine ⟨by simp, fun c hc => ?_⟩
    rcases List.mem_cons.1 hc with rfl | hc
    · decide
    · exact digits_word h1 c hc
  · refine ⟨by simp, fun c hc => ?_⟩
    rcases List.mem_cons.1 hc with rfl | hc
    · decide
    · exact digits_word h1 c hc
  · exact ⟨(digits_all h1).1, digits_word h1⟩

theorem exp_word {x : List Char} {e : Int} (h : pyExp x = .ok e) : ∀ c ∈ x, isWs c = false := by
  unfold pyExp at h
  split at h
  · simp
  · intro c hc
    rcases List.mem_cons.1 hc with rfl | hc
    · decide
    · exact (int_word h).2 c hc
  · intro c hc
    rcases List.mem_cons.1 hc with rfl | hc
    · decide
    · exact (int_word h).2 c hc
  · cases h

theorem ufloat_word {s : List Char} {x : ℚ} (h : pyUFloat s = .ok x) : Word s := by
  unfold pyUFloat at h
  simp only at h
  split_ifs at h with h1
  obtain ⟨e, h2, -⟩ := Res.bind_eq_ok.1 h
  refine ⟨by rintro rfl; exact h1 rfl, fun c hc => ?_⟩
  rw [← List.takeWhile_append_dropWhile (p := isDigit) (l := s), List.mem_append] at hc
  rcases hc with hc | hc
  · exact isWs_digit (takeWhile_digits' s c hc)
  · unfold fracSplit at h2
    split at h2
    · rename_i t heq
      rw [heq] at hc
      rcases List.mem_cons.1 hc with rfl | hc
      · decide
      · rw [← List.takeWhile_append_dropWhile (p := isDigit) (l := t), List.mem_append] at hc
        rcases hc with hc | hc
        · exact isWs_digit (takeWhile_digits' t c hc)
        · exact exp_word h2 c hc
    · exact exp_word h2 c hc

theorem float_word {w : List Char} {x : ℚ} (h : pyFloat w = .ok x) : Word w := by
  unfold pyFloat at h
  split at h
  · obtain ⟨y, h1, -⟩ := Res.bind_eq_ok.1 h
    refine ⟨by simp, fun c hc => ?_⟩
    rcases List.mem_cons.1 hc with rfl | hc
    · decide
    · exact (ufloat_word h1).2 c hc
  · refine ⟨by simp, fun c hc => ?_⟩
    rcases List.mem_cons.1 hc with rfl | hc
    · decide
    · exact (ufloat_word h).2 c hc
  · exact ufloat_word h

theorem intCell_good {c : Cell Int} (h : IntCell c) : c.Good convInt :=
  ⟨int_word h.2.1, h.1, convInt_some.2 h.2⟩

theorem numCell_good {c : Cell ℚ} (h : NumCell c) : c.Good convNum :=
  ⟨float_word h.2, h.1, convNum_some.2 h.2⟩

theorem row_good {size n : Nat} {r : DRow ℚ} (h : Row size n r) : r.Good convInt convNum size n :=
  ⟨intCell_good h.1, h.2.1, fun c hc => numCell_good (h.2.2.1 c hc), h.2.2.2⟩

/-- **C146** (one number).  A number that is followed by white space or the end of the file is taken whole, whatever white
space is in front, and what follows it stays in the stream. -/
theorem C146_number (g r : List Char) (hg : ∀ c ∈ g, isWs c = true) (hr : r = [] ∨ ∃ c t, r = c :: t ∧ isWs c = true) :
    (∀ (w : List Char) (i : Int), pyInt w = .ok i → -2147483648 ≤ i → i ≤ 2147483647 →
      getInt ⟨g ++ (w ++ r), false, false⟩ = (some i, ⟨r, r.isEmpty, false⟩)) ∧
    ∀ (w : List Char) (x : ℚ), pyFloat w = .ok x →
      getNum ⟨g ++ (w ++ r), false, false⟩ = (some x, ⟨r, r.isEmpty, false⟩) := by
  have ha : Apart r := by
    intro c hc
    rcases hr with rfl | ⟨d, t, rfl, hd⟩
    · simp at hc
    · simp at hc; subst hc; exact hd
  constructor
  · intro w i h h1 h2
    obtain ⟨h4, h5⟩ := takeInt_number h r fun x hx => ws_no_digit (ha x hx)
    exact take_of h4 h5 (convInt_some.2 ⟨h, h1, h2⟩) g hg
  · intro w x h
    obtain ⟨h4, h5⟩ := takeNum_number h r ha
    exact take_of h4 h5 (convNum_some.2 h) g hg

/-- The assumption made elsewhere in the model, that a number is a word, holds for such numbers. -/
theorem C146_word (g r : List Char) (hg : ∀ c ∈ g, isWs c = true) (hr : r = [] ∨ ∃ c t, r = c :: t ∧ isWs c = true) :
    (∀ (w : List Char) (i : Int), pyInt w = .ok i → -2147483648 ≤ i → i ≤ 2147483647 →
      extract 0 convInt ⟨g ++ (w ++ r), false, false⟩ = getInt ⟨g ++ (w ++ r), false, false⟩) ∧
    ∀ (w : List Char) (x : ℚ), pyFloat w = .ok x →
      extract 0 convNum ⟨g ++ (w ++ r), false, false⟩ = getNum ⟨g ++ (w ++ r), false, false⟩ := by
  have ha : Apart r := by
    intro c hc
    rcases hr with rfl | ⟨d, t, rfl, hd⟩
    · simp at hc
    · simp at hc; subst hc; exact hd
  have key : ∀ {α : Type} (zero : α) (conv : List Char → Option α) (w : List Char) (v : α), Word w → conv w = some v →
      extract zero conv ⟨g ++ (w ++ r), false, false⟩ = (some v, ⟨r, r.isEmpty, false⟩) := by
    intro α zero conv w v hw hv
    obtain ⟨c, t, rfl⟩ := List.exists_cons_of_ne_nil hw.1
    have hd := takeWhile_append_stop isWs g (c :: t ++ r) hg (by intro x hx; simp at hx; subst hx; exact hw.2 _ (by simp))
    have hd2 := takeWhile_append_stop (fun x => !isWs x) (c :: t) r (fun x hx => by simp [hw.2 x hx]) (by
      intro x hx; simp [ha x hx])
    unfold extract
    simp only [Bool.or_self, Bool.false_eq_true, if_false]
    rw [hd.2]
    simp only [List.cons_append] at hd2 ⊢
    rw [hd2.1, hd2.2, hv]
  obtain ⟨n1, n2⟩ := C146_number g r hg hr
  exact ⟨fun w i h h1 h2 => by rw [n1 w i h h1 h2]; exact key _ _ _ _ (int_word h) (convInt_some.2 ⟨h, h1, h2⟩),
    fun w x h => by rw [n2 w x h]; exact key _ _ _ _ (float_word h) (convNum_some.2 h)⟩

/-- **C146** (temperatures).  The file of comment lines, a grid of `n` energies, one more line and rows for distinct nuclei is
read digit for digit. -/
theorem C146_temperatures (size n : Nat) (hn : 0 < n)
    (comments : List (List Char)) (hc : ∀ l ∈ comments, Comment l)
    (grid : List (Cell ℚ)) (hgl : grid.length = n) (hgg : ∀ c ∈ grid, NumCell c)
    (b : List Char) (hlast : grid.getLast?.map Cell.gap = some (b ++ ['\n'])) (hb : '\n' ∉ b)
    (line : List Char) (hl : '\n' ∉ line)
    (rs : List (DRow ℚ)) (hne : rs ≠ []) (hr : ∀ r ∈ rs, Row size n r)
    (hd : rs.Pairwise fun a c => a.head.val ≠ c.head.val)
    (cwd dir : Option (List Char))
    (hf : Given cwd dir (commentText comments ++ (grid.flatMap Cell.text ++ (line ++ '\n' :: rs.flatMap DRow.text)))) :
    ∃ tab, (∃ N, ∀ fuel, N ≤ fuel → Stream.readTemperatures size n fuel cwd dir = .ok (grid.map Cell.val, tab)) ∧
      tab.length = size ∧ (∀ r ∈ rs, tab[r.head.val.toNat]? = some r.vals) ∧
      ∀ z : Nat, z < size → (∀ r ∈ rs, r.head.val ≠ z) → tab[z]? = some (List.replicate n 0) := by
  have hr' := fun r h => row_good (hr r h)
  have hgg' := fun c h => numCell_good (hgg c h)
  have hg0 : grid ≠ [] := by rintro rfl; simp at hgl; omega
  refine ⟨putRows (List.replicate size (List.replicate n 0)) rs, ⟨comments.length + rs.length + 4, ?_⟩,
    by rw [putRows_length]; simp, ?_, ?_⟩
  · intro fuel hfuel
    obtain ⟨k, rfl⟩ : ∃ k, fuel = comments.length + (rs.length + 3 + k + 1) := ⟨fuel - (comments.length + rs.length + 4), by omega⟩
    unfold Stream.readTemperatures
    rw [given_open hf]
    simp only [Bool.false_eq_true, if_false]
    obtain ⟨str', hcount⟩ := count_comments (grid.flatMap Cell.text ++ (line ++ '\n' :: rs.flatMap DRow.text))
      comments (rs.length + 3 + k + 1) [] hc
    have hh : (grid.flatMap Cell.text ++ (line ++ '\n' :: rs.flatMap DRow.text)).head? ≠ some '#' := by
      cases grid with
      | nil => exact absurd rfl hg0
      | cons c cs =>
        obtain ⟨-, a, t, hw, -⟩ := takeNum_number (hgg c (by simp)).2 [] (by simp [Apart])
        have ha : a ≠ '#' := by
          rintro rfl
          have := (hgg c (by simp)).2
          rw [hw] at this
          simp [pyFloat, pyUFloat, fracSplit, isDigit] at this
        rw [List.flatMap_cons, Cell.text, hw]
        simp [ha]
    rw [hcount, count_stop _ hh]
    simp only [thenDo, Nat.zero_add]
    have hskip := skip_comments (grid.flatMap Cell.text ++ (line ++ '\n' :: rs.flatMap DRow.text)) comments [] hc
    generalize skipLines comments.length ⟨commentText comments ++
      (grid.flatMap Cell.text ++ (line ++ '\n' :: rs.flatMap DRow.text)), false, false⟩ [] = q at hskip
    obtain ⟨str, s1⟩ := q
    simp only at hskip
    subst hskip
    simp only
    obtain ⟨g1, -, hg1, hcells⟩ := cells_good grid 0 (List.replicate n 0) [] (line ++ '\n' :: rs.flatMap DRow.text)
      hgg' hg0 (by simp) (by simp [hgl])
    rw [hlast] at hg1
    cases hg1
    rw [hgl, List.nil_append] at hcells
    rw [hcells]
    simp only [List.take_zero, List.nil_append, Nat.zero_add]
    rw [List.drop_of_length_le (by simp), List.append_nil]
    rw [show b ++ ['\n'] ++ (line ++ '\n' :: rs.flatMap DRow.text) = b ++ '\n' :: (line ++ '\n' :: rs.flatMap DRow.text) by
      simp, getline_line b _ hb]
    simp only
    rw [show comments.length + (rs.length + 3 + k + 1) = (comments.length + rs.length + 3 + k) + 1 by omega, Stream.tempLoop,
      getline_line line _ hl]
    simp only [Bool.false_eq_true, if_false]
    obtain ⟨z', hz⟩ := rows_good n hn rs (comments.length + 1 + k) none
      (List.replicate size (List.replicate n 0)) (by simpa using hr') (fun row h => by rw [List.eq_of_mem_replicate h]; simp) hne
    rw [show comments.length + rs.length + 3 + k = rs.length + 2 + (comments.length + 1 + k) by omega, hz]
    simp only [thenDo]
    rw [show rs.length + 2 + (comments.length + 1 + k) = (rs.length + 2 + (comments.length + k)) + 1 by omega, Stream.tempLoop,
      getline_bad _ rfl]
    simp
  · exact putRows_mem rs _ (fun r h => ⟨(hr r h).2.2.2.1, by simpa using (hr r h).2.2.2.2⟩) hd
  · intro z hz h
    rw [putRows_other z rs _ (fun r hrr => by
      have := h r hrr
      have := (hr r hrr).2.2.2.1
      omega), List.getElem?_replicate, if_pos hz]

/-- **C146** (level densities).  Every row after the first line that is no comment is read digit for digit. -/
theorem C146_levels (size n : Nat) (hn : 0 < n)
    (comments : List (List Char)) (hc : ∀ l ∈ comments, Comment l) (first : List Char) (hf1 : '\n' ∉ first)
    (hf2 : first.head? ≠ some '#')
    (rs : List (DRow ℚ)) (hne : rs ≠ []) (hr : ∀ r ∈ rs, Row size n r)
    (hd : rs.Pairwise fun a c => a.head.val ≠ c.head.val)
    (cwd dir : Option (List Char))
    (hf : Given cwd dir (commentText comments ++ (first ++ '\n' :: rs.flatMap DRow.text))) :
    ∃ tab, (∃ N, ∀ fuel, N ≤ fuel → Stream.readLDP size n fuel cwd dir = .ok tab) ∧
      tab.length = size ∧ (∀ r ∈ rs, tab[r.head.val.toNat]? = some r.vals) ∧
      ∀ z : Nat, z < size → (∀ r ∈ rs, r.head.val ≠ z) → tab[z]? = some (List.replicate n 0) := by
  have hr' := fun r h => row_good (hr r h)
  refine ⟨putRows (List.replicate size (List.replicate n 0)) rs, ⟨comments.length + rs.length + 4, ?_⟩,
    by rw [putRows_length]; simp, ?_, ?_⟩
  · intro fuel hfuel
    obtain ⟨k, rfl⟩ : ∃ k, fuel = comments.length + (rs.length + 2 + (1 + k) + 1) :=
      ⟨fuel - (comments.length + rs.length + 4), by omega⟩
    unfold Stream.readLDP
    rw [given_open hf]
    simp only [Bool.false_eq_true, if_false]
    obtain ⟨str', h⟩ := ldp_comments n (first ++ '\n' :: rs.flatMap DRow.text) none
      (List.replicate size (List.replicate n 0)) comments (rs.length + 2 + (1 + k) + 1) [] hc
    rw [h, Stream.ldpLoop, getline_line first _ hf1]
    simp only [Bool.false_eq_true, if_false]
    rw [if_neg hf2]
    obtain ⟨z', hz⟩ := rows_good n hn rs (1 + k) none
      (List.replicate size (List.replicate n 0)) (by simpa using hr') (fun row h => by rw [List.eq_of_mem_replicate h]; simp) hne
    rw [hz]
    simp only [thenDo]
    rw [show rs.length + 2 + (1 + k) = (rs.length + 2 + k) + 1 by omega, Stream.ldpLoop, getline_bad _ rfl]
    simp
  · exact putRows_mem rs _ (fun r h => ⟨(hr r h).2.2.2.1, by simpa using (hr r h).2.2.2.2⟩) hd
  · intro z hz h
    rw [putRows_other z rs _ (fun r hrr => by
      have := h r hrr
      have := (hr r hrr).2.2.2.1
      omega), List.getElem?_replicate, if_pos hz]

/-- **C146** (what is not refused): a nucleus written with a point.  The row loop of both readers does not refuse such a row: the point
and what follows it are taken as the first value, every value moves one place, and the last value is left for the next
nucleus. -/
theorem C146_point (n fuel : Nat) (z : Option Int) (tab : List (List ℚ)) (ht : ∀ row ∈ tab, row.length = n + 1)
    (w f : List Char) (i : Int) (x : ℚ) (g : List Char) (hg : Gap g) (hw : pyInt w = .ok i) (h0 : 0 ≤ i) (h1 : i < tab.length)
    (hi : i ≤ 2147483647) (hx : pyFloat ('.' :: f) = .ok x)
    (cs : List (Cell ℚ)) (hcs : ∀ c ∈ cs, NumCell c) (hl : cs.length = n) (last : Cell ℚ) (t : List Char) :
    ∃ g1, Gap g1 ∧ Stream.rows (n + 1) (fuel + 1) z tab ⟨w ++ '.' :: (f ++ g ++ (cs.flatMap Cell.text ++ (last.text ++ t))), false, false⟩ =
      Stream.rows (n + 1) fuel (some i) (tab.set i.toNat (x :: cs.map Cell.val)) ⟨g1 ++ (last.text ++ t), false, false⟩ := by
  obtain ⟨row, hrow, hra⟩ := readAt_ok (xs := tab) h0 h1
  have hrl : row.length = n + 1 := ht row (List.mem_of_getElem? hrow)
  obtain ⟨a1, a2⟩ := takeInt_number hw ('.' :: (f ++ g ++ (cs.flatMap Cell.text ++ (last.text ++ t))))
    (by intro c hc; simp at hc; subst hc; decide)
  have hint := take_of (bad := badInt) a1 a2 (convInt_some.2 ⟨hw, by omega, hi⟩) [] (by simp)
  have hcells := cells_good (⟨'.' :: f, g, x⟩ :: cs) 0 row [] (last.text ++ t)
    (by
      intro c hc
      rcases List.mem_cons.1 hc with rfl | hc
      · exact numCell_good ⟨hg, hx⟩
      · exact numCell_good (hcs c hc)) (by simp) (by simp) (by simp [hrl, hl])
  obtain ⟨g1, hg1, -, hc⟩ := hcells
  refine ⟨g1, hg1, ?_⟩
  rw [List.nil_append] at hint
  rw [Stream.rows]
  simp only [Bool.false_eq_true, if_false]
  rw [show getInt _ = _ from hint]
  simp only [Option.some_or]
  rw [hra]
  simp only [List.isEmpty_cons]
  have e : (⟨'.' :: f, g, x⟩ :: cs).flatMap Cell.text ++ (last.text ++ t) =
      '.' :: (f ++ g ++ (cs.flatMap Cell.text ++ (last.text ++ t))) := by
    simp [Cell.text]
  rw [List.nil_append, e, List.length_cons, hl] at hc
  rw [hc]
  simp only [List.take_zero, List.nil_append, List.map_cons]
  rw [List.drop_of_length_le (by omega), List.append_nil]

/-! ## Examples -/

namespace StreamDemo

/-- A level density file with grids of two values: a comment, the line that is lost, two rows. -/
def file : List Char := "# ldp\n92234 1 2\n92235 1.5 -2e-1\n 94240 .25 3.\n".toList

def rowsOf : List (DRow ℚ) :=
  [⟨⟨"92235".toList, [' '], 92235⟩, [⟨"1.5".toList, [' '], 3/2⟩, ⟨"-2e-1".toList, "\n ".toList, -1/5⟩]⟩,
   ⟨⟨"94240".toList, [' '], 94240⟩, [⟨".25".toList, [' '], 1/4⟩, ⟨"3.".toList, ['\n'], 3⟩]⟩]

theorem rows_ok : ∀ r ∈ rowsOf, Row 140000 2 r := by
  have gap : ∀ g ∈ [[' '], ['\n'], "\n ".toList], Gap g := by
    intro g hg
    simp only [List.mem_cons, List.not_mem_nil, or_false] at hg
    rcases hg with rfl | rfl | rfl <;> exact ⟨by decide, by decide⟩
  intro r hr
  simp only [rowsOf, List.mem_cons, List.not_mem_nil, or_false] at hr
  rcases hr with rfl | rfl
  · refine ⟨⟨gap _ (by decide), by decide +kernel, by decide, by decide⟩, rfl, ?_, by decide, by decide⟩
    intro c hc
    simp only [List.mem_cons, List.not_mem_nil, or_false] at hc
    rcases hc with rfl | rfl
    · exact ⟨gap _ (by decide), by decide +kernel⟩
    · exact ⟨gap _ (by decide), by decide +kernel⟩
  · refine ⟨⟨gap _ (by decide), by decide +kernel, by decide, by decide⟩, rfl, ?_, by decide, by decide⟩
    intro c hc
    simp only [List.mem_cons, List.not_mem_nil, or_false] at hc
    rcases hc with rfl | rfl
    · exact ⟨gap _ (by decide), by decide +kernel⟩
    · exact ⟨gap _ (by decide), by decide +kernel⟩

/-- The hypotheses of `C146_levels` hold for this file. -/
example : ∃ tab : List (List ℚ), (∃ N, ∀ fuel, N ≤ fuel → Stream.readLDP 140000 2 fuel (some file) none = .ok tab) ∧
    tab[92235]? = some [(3/2 : ℚ), -1/5] ∧ tab[94240]? = some [(1/4 : ℚ), 3] := by
  obtain ⟨tab, h1, -, h2, -⟩ := C146_levels 140000 2 (by decide) ["# ldp".toList]
    (by intro l hl; simp only [List.mem_singleton] at hl; subst hl; exact ⟨by decide, by decide⟩)
    "92234 1 2".toList (by decide) (by decide) rowsOf (by simp [rowsOf]) rows_ok (by simp [rowsOf]) (some file) none
    (Or.inl (by decide +kernel))
  exact ⟨tab, h1, h2 _ (List.mem_cons_self ..), h2 _ (List.mem_cons_of_mem _ (List.mem_cons_self ..))⟩

/-- A temperature file. -/
def temps : List Char := "# T\n0.5 1.0\n# nuclei\n92235 1.5 -2e-1\n 94240 .25 3.\n".toList

example : ∃ tab : List (List ℚ), (∃ N, ∀ fuel, N ≤ fuel →
      Stream.readTemperatures 140000 2 fuel none (some temps) = .ok ([1/2, 1], tab)) ∧
    tab[92235]? = some [(3/2 : ℚ), -1/5] := by
  obtain ⟨tab, h1, -, h2, -⟩ := C146_temperatures 140000 2 (by decide) ["# T".toList]
    (by intro l hl; simp only [List.mem_singleton] at hl; subst hl; exact ⟨by decide, by decide⟩)
    [⟨"0.5".toList, [' '], 1/2⟩, ⟨"1.0".toList, ['\n'], 1⟩] rfl
    (by
      intro c hc
      simp only [List.mem_cons, List.not_mem_nil, or_false] at hc
      rcases hc with rfl | rfl
      · exact ⟨⟨by decide, by decide⟩, by decide +kernel⟩
      · exact ⟨⟨by decide, by decide⟩, by decide +kernel⟩)
    [] rfl (by simp) "# nuclei".toList (by decide) rowsOf (by simp [rowsOf]) rows_ok (by simp [rowsOf]) none (some temps)
    (Or.inr ⟨rfl, by decide +kernel⟩)
  exact ⟨tab, h1, h2 _ (List.mem_cons_self ..)⟩

/-- A nucleus written as `3.0`: the row `3.0 1.5 2.5` of two values. -/
example : ∃ g1, Gap g1 ∧ Stream.rows 2 5 none (List.replicate 4 [0, 0]) ⟨"3.0 1.5 2.5\n".toList, false, false⟩ =
    Stream.rows 2 4 (some 3) [[0, 0], [0, 0], [0, 0], [0, 3/2]] ⟨g1 ++ "2.5\n".toList, false, false⟩ := by
  obtain ⟨g1, h1, h2⟩ := C146_point 1 4 none (List.replicate 4 [0, 0]) (by intro r hr; rw [List.eq_of_mem_replicate hr]; rfl)
    ['3'] ['0'] 3 0 [' '] ⟨by decide, by decide⟩ (by decide +kernel) (by decide) (by decide) (by decide) (by decide +kernel)
    [⟨"1.5".toList, [' '], 3/2⟩]
    (by intro c hc; simp only [List.mem_singleton] at hc; subst hc; exact ⟨⟨by decide, by decide⟩, by decide +kernel⟩) rfl
    ⟨"2.5".toList, ['\n'], 5/2⟩ []
  exact ⟨g1, h1, h2⟩

/-- The characters that are left. -/
example : getInt ⟨" 92235.0 1".toList, false, false⟩ = (some 92235, ⟨".0 1".toList, false, false⟩) ∧
    getNum ⟨" 1.5e3x".toList, false, false⟩ = (some 1500, ⟨['x'], false, false⟩) ∧
    getInt ⟨"3000000000 1".toList, false, false⟩ = (some 2147483647, ⟨" 1".toList, false, true⟩) ∧
    getNum ⟨"1e 2".toList, false, false⟩ = (some 0, ⟨" 2".toList, false, true⟩) := by
  decide +kernel

end StreamDemo

end CGMF.Props
